import Mathlib.Data.List.Zip
import Verif.Lemmas.Reverse
import Verif.Lemmas.ContourIO2
import Verif.Props.Sample
/-!
# C27, C28, C29: reversing contours
-/
open Fl
namespace GP
variable {PD : Type}
open Spec

/-! ## C27 -/

/-- Reversing a closed contour keeps the start point, reverses the order of the others and swaps
the handles of every point. -/
theorem C27_closed (p : Point PD) (rest : Contour PD) (h : p.ptype ≠ .move) :
    toReversed (p :: rest) = .ok (swapped p :: rest.reverse.map swapped) :=
  toReversed_closed (Or.inl h)

/-- `k` reversals. -/
def reversals : Nat → Contour PD → R (Contour PD)
  | 0, c => .ok c
  | k + 1, c => toReversed c >>= reversals k

/-- An even number of reversals of a closed contour gives it back, an odd number gives its
reversal. -/
theorem C27_involution (p : Point PD) (rest : Contour PD) (h : p.ptype ≠ .move) (k : Nat) :
    reversals (2 * k) (p :: rest) = .ok (p :: rest) ∧
    reversals (2 * k + 1) (p :: rest) = toReversed (p :: rest) := by
  have two : ∀ k (q : Contour PD), reversals (2 * (k + 1)) q =
      (toReversed q >>= fun q' => toReversed q' >>= fun q'' => reversals (2 * k) q'') := fun k q => rfl
  have even : ∀ k, reversals (2 * k) (p :: rest) = .ok (p :: rest) := by
    intro k
    induction k with
    | zero => rfl
    | succ k ih =>
      rw [two, C27_closed p rest h, Out.bind_ok, C27_closed (swapped p) _ h, Out.bind_ok,
        swapped_swapped, ← List.map_reverse, List.reverse_reverse, List.map_map]
      have : (swapped ∘ swapped : Point PD → Point PD) = id := by funext q; rfl
      rw [this, List.map_id, ih]
  refine ⟨even k, ?_⟩
  have add : ∀ k (c d : Contour PD), reversals k c = .ok d → reversals (k + 1) c = toReversed d := by
    intro k
    induction k with
    | zero =>
      intro c d e; cases e
      show (toReversed c >>= fun x => Out.ok x) = _
      cases toReversed c <;> rfl
    | succ k ih =>
      intro c d e
      change (toReversed c >>= reversals k) = .ok d at e
      show (toReversed c >>= reversals (k + 1)) = _
      cases ec : toReversed c with
      | ok c' => rw [ec, Out.bind_ok] at e; rw [Out.bind_ok]; exact ih c' d e
      | err _ => rw [ec] at e; cases e
      | panic => rw [ec] at e; cases e
  exact add _ _ _ (even k)

/-- Reversal panics exactly on the empty contour and never fails otherwise. -/
theorem C27_panics_iff (c : Contour PD) : (toReversed c = .panic ↔ c = []) ∧ ∀ e, toReversed c ≠ .err e := by
  cases c with
  | nil => simp [toReversed]
  | cons p rest =>
    by_cases h : p.ptype ≠ .move ∨ rest = []
    · rw [toReversed_closed h]; simp
    · have h1 : p.ptype = .move := by
        by_cases e : p.ptype = .move
        · exact e
        · exact absurd (Or.inl e) h
      rcases List.eq_nil_or_concat rest with rfl | ⟨mid, z, rfl⟩
      · exact absurd (Or.inr rfl) h
      · rw [List.concat_eq_append, ← List.cons_append, toReversed_open h1]; simp

example : (Sample.cv 0 0 1 1 2 2).ptype ≠ .move := by decide

/-! ## C28 -/

/-- Reversing an open contour of at least two points: an open contour visiting the points in the
opposite order, all handles swapped, all types but those of the two ends kept. -/
theorem C28_open (p z : Point PD) (mid : Contour PD) (h : p.ptype = .move) :
    ∃ c', toReversed (p :: mid ++ [z]) = .ok c' ∧
      c'.map (fun q => (q.x, q.y, q.a, q.b, q.name, q.smooth, q.data)) =
        ((p :: mid ++ [z]).reverse.map swapped).map (fun q => (q.x, q.y, q.a, q.b, q.name, q.smooth, q.data)) ∧
      (∃ t, c'.map (·.ptype) = .move :: (mid.map (·.ptype)).reverse ++ [t]) := by
  refine ⟨_, toReversed_open h, ?_, ?_⟩
  · simp [swapped]
  · exact ⟨typeByHandles ((mid ++ [z]).head (by simp)).b p.a, by simp [swapped]⟩

/-- Reversing twice an open contour of at least two points: only the type of the last point may
change, to the type its handles call for. -/
theorem C28_twice (p z : Point PD) (mid : Contour PD) (h : p.ptype = .move) :
    (toReversed (p :: mid ++ [z]) >>= toReversed) =
      .ok (p :: mid ++ [{ z with ptype := typeByHandles ((p :: mid).getLast (by simp)).a z.b }]) := by
  rw [toReversed_open h, Out.bind_ok, toReversed_open rfl]
  congr 1
  have e1 : ({ swapped { swapped p with ptype := typeByHandles ((mid ++ [z]).head (by simp)).b p.a } with
      ptype := PointType.move } : Point PD) = p := by
    cases p; simp only at h; subst h; rfl
  have e2 : (mid.reverse.map swapped).reverse.map swapped = mid := by
    rw [← List.map_reverse, List.reverse_reverse, List.map_map]
    have : (swapped ∘ swapped : Point PD → Point PD) = id := by funext q; rfl
    rw [this, List.map_id]
  rw [e1, e2]
  congr 1
  have e3 : ((mid.reverse.map swapped ++
      [({ swapped p with ptype := typeByHandles ((mid ++ [z]).head (by simp)).b p.a } : Point PD)]).head (by simp)).b
      = ((p :: mid).getLast (by simp)).a := by
    rcases List.eq_nil_or_concat mid with rfl | ⟨m, y, rfl⟩
    · rfl
    · simp only [List.concat_eq_append, List.reverse_append, List.reverse_cons, List.reverse_nil,
        List.nil_append, List.cons_append, List.map_cons, List.head_cons]
      simp [swapped]
  rw [e3]
  rfl

/-- Reversing twice gives the contour back exactly when the type of its last point agrees with the
handles in front of it. -/
theorem C28_identity_iff (p z : Point PD) (mid : Contour PD) (h : p.ptype = .move) :
    (toReversed (p :: mid ++ [z]) >>= toReversed) = .ok (p :: mid ++ [z]) ↔
      z.ptype = typeByHandles ((p :: mid).getLast (by simp)).a z.b := by
  rw [C28_twice p z mid h, Out.ok.injEq, List.append_cancel_left_eq, List.cons.injEq]
  constructor
  · rintro ⟨e, _⟩; exact (congrArg Point.ptype e).symm
  · intro e; refine ⟨?_, rfl⟩; rw [← e]

/-- Both cases of the equivalence occur. -/
example : (Sample.pt .move 0 0).ptype = .move ∧
    (Sample.pt .line 1 1).ptype = typeByHandles (Sample.pt .move 0 0).a (Sample.pt .line 1 1).b ∧
    (Sample.pt .curve 1 1).ptype ≠ typeByHandles (Sample.pt .move 0 0).a (Sample.pt .curve 1 1).b := by
  decide

/-- An open contour of one point is treated like a closed one. -/
theorem C28_single (p : Point PD) : toReversed [p] = .ok [swapped p] := toReversed_closed (Or.inr rfl)

/-! ## C29 -/

theorem segment_back (x : Point PD × Point PD) :
    segment (swapped x.2, swapped x.1) = Poly.back (segment x) := rfl

/-- Control polygons of the reversed closed contour: those of the contour, backwards, in the
opposite order. -/
theorem C29_polygons_closed (p : Point PD) (rest : Contour PD) (h : p.ptype ≠ .move) (c' : Contour PD)
    (hr : toReversed (p :: rest) = .ok c') :
    (closedPairs c').map segment = ((closedPairs (p :: rest)).map segment).reverse.map Poly.back := by
  rw [C27_closed p rest h] at hr
  cases hr
  have : closedPairs (swapped p :: rest.reverse.map swapped) =
      ((closedPairs (p :: rest)).reverse).map fun x => (swapped x.2, swapped x.1) := by
    unfold closedPairs
    rw [map_zip_reverse _ _ (by simp)]
    simp only [List.tail_cons, List.take_succ_cons, List.take_zero, List.reverse_cons, List.reverse_append,
      List.reverse_nil, List.nil_append, List.cons_append]
    rw [show swapped p :: rest.reverse.map swapped = (p :: rest.reverse).map swapped from rfl,
      show rest.reverse.map swapped ++ [swapped p] = (rest.reverse ++ [p]).map swapped by simp]
    rw [List.zip_map, ← List.zip_swap (p :: rest.reverse), List.map_map]
    rfl
  rw [this, ← List.map_reverse, List.map_map, List.map_map]
  rfl

/-- The same for open contours. -/
theorem C29_polygons_open (p z : Point PD) (mid : Contour PD) (h : p.ptype = .move) (c' : Contour PD)
    (hr : toReversed (p :: mid ++ [z]) = .ok c') :
    (openPairs c').map segment = ((openPairs (p :: mid ++ [z])).map segment).reverse.map Poly.back := by
  rw [toReversed_open h] at hr
  cases hr
  have seg : ∀ (l l' : List (Point PD)), l.map (fun q => (q.x, q.y, q.a, q.b)) = l'.map (fun q => (q.x, q.y, q.a, q.b)) →
      (openPairs l).map segment = (openPairs l').map segment := by
    intro l l' e
    have gen : ∀ (l l' m m' : List (Point PD)),
        l.map (fun q => (q.x, q.y, q.a, q.b)) = l'.map (fun q => (q.x, q.y, q.a, q.b)) →
        m.map (fun q => (q.x, q.y, q.a, q.b)) = m'.map (fun q => (q.x, q.y, q.a, q.b)) →
        (l.zip m).map segment = (l'.zip m').map segment := by
      intro l
      induction l with
      | nil => intro l' m m' e1 _; cases l' <;> simp_all
      | cons a l ih =>
        intro l' m m' e1 e2
        cases l' with
        | nil => cases e1
        | cons a' l' =>
          cases m with
          | nil => cases m' with
            | nil => rfl
            | cons _ _ => cases e2
          | cons b m =>
            cases m' with
            | nil => cases e2
            | cons b' m' =>
              rw [List.map_cons, List.map_cons, List.cons.injEq] at e1 e2
              rw [List.zip_cons_cons, List.zip_cons_cons, List.map_cons, List.map_cons, ih l' m m' e1.2 e2.2]
              congr 1
              simp only [Prod.mk.injEq] at e1 e2
              obtain ⟨⟨ex, ey, ea, _⟩, _⟩ := e1
              obtain ⟨⟨fx, fy, _, fb⟩, _⟩ := e2
              unfold segment outPos inPos
              simp only [ex, ey, ea, fx, fy, fb]
    unfold openPairs
    apply gen _ _ _ _ e
    rw [List.map_tail, List.map_tail, e]
  rw [seg _ ((p :: mid ++ [z]).reverse.map swapped)]
  · have : openPairs ((p :: mid ++ [z]).reverse.map swapped) =
        ((openPairs (p :: mid ++ [z])).reverse).map fun x => (swapped x.2, swapped x.1) := by
      unfold openPairs
      have hz : (p :: mid ++ [z]).zip (p :: mid ++ [z]).tail = (p :: mid).zip (mid ++ [z]) := by
        show (p :: mid ++ [z]).zip (mid ++ [z]) = _
        have := zip_dropLast p (mid ++ [z])
        rw [List.dropLast_concat] at this
        exact this.symm
      rw [hz, map_zip_reverse _ _ (by simp)]
      have hz2 : ((p :: mid ++ [z]).reverse.map swapped).tail = ((p :: mid).reverse).map swapped := by
        simp
      have hz3 : (p :: mid ++ [z]).reverse.map swapped = swapped z :: (mid.reverse ++ [p]).map swapped := by
        simp
      have hz4 : (p :: mid).reverse.map swapped = (mid.reverse ++ [p]).map swapped := by simp
      have hz5 : (swapped z :: (mid.reverse ++ [p]).map swapped).zip ((mid.reverse ++ [p]).map swapped) =
          (swapped z :: mid.reverse.map swapped).zip ((mid.reverse ++ [p]).map swapped) := by
        have := zip_dropLast (swapped z) ((mid.reverse ++ [p]).map swapped)
        rw [List.map_append, List.map_cons, List.map_nil, List.dropLast_concat] at this
        rw [List.map_append, List.map_cons, List.map_nil]
        exact this.symm
      rw [hz2, hz3, hz4, hz5]
      have hz6 : (mid ++ [z]).reverse = z :: mid.reverse := by simp
      have hz7 : (p :: mid).reverse = mid.reverse ++ [p] := by simp
      rw [hz6, hz7, show swapped z :: mid.reverse.map swapped = (z :: mid.reverse).map swapped from rfl,
        List.zip_map, ← List.zip_swap (z :: mid.reverse), List.map_map]
      rfl
    rw [this, ← List.map_reverse, List.map_map, List.map_map]
    rfl
  · simp [swapped]

/-- C29 for what the types say to draw is false: a triangle with one curved side.  The types stay
with the points, so in the reversal another side is the curve. -/
theorem C29_false : ∃ c c' : Contour Unit, toReversed c = .ok c' ∧ isClosed c = true ∧
    ¬ ∃ s t, ((closedPairs c).map drawn).reverse.map Drawn.back = s ++ t ∧ (closedPairs c').map drawn = t ++ s := by
  refine ⟨[{ Sample.pt .line 0 0 with a := .at (Sample.f 1) (Sample.f 1) },
      { Sample.pt .curve 4 0 with b := .at (Sample.f 3) (Sample.f 1) }, Sample.pt .line 4 4],
    [swapped { Sample.pt .line 0 0 with a := .at (Sample.f 1) (Sample.f 1) }, swapped (Sample.pt .line 4 4),
      swapped { Sample.pt .curve 4 0 with b := .at (Sample.f 3) (Sample.f 1) }], rfl, rfl, ?_⟩
  rintro ⟨s, t, h1, h2⟩
  -- the curve from (4,0) to (0,0) of the expected list is not among the segments drawn
  have hm : Drawn.curve ((Sample.f 4, Sample.f 0), (Sample.f 3, Sample.f 1), (Sample.f 1, Sample.f 1),
      (Sample.f 0, Sample.f 0)) ∈ s ++ t := by
    rw [← h1]; decide +kernel
  have hm' : Drawn.curve ((Sample.f 4, Sample.f 0), (Sample.f 3, Sample.f 1), (Sample.f 1, Sample.f 1),
      (Sample.f 0, Sample.f 0)) ∈ t ++ s := by
    rcases List.mem_append.1 hm with h | h
    · exact List.mem_append_right _ h
    · exact List.mem_append_left _ h
  rw [← h2] at hm'
  revert hm'
  decide +kernel

/-- What holds: if all points of a closed contour are curve points, or none is, the reversal draws
the same segments backwards.  (Missing from C29: contours mixing curves and lines.) -/
theorem C29_partial (p : Point PD) (rest : Contour PD) (h : p.ptype ≠ .move)
    (hu : (∀ q ∈ p :: rest, q.ptype = .curve) ∨ (∀ q ∈ p :: rest, q.ptype ≠ .curve)) (c' : Contour PD)
    (hr : toReversed (p :: rest) = .ok c') :
    (closedPairs c').map drawn = ((closedPairs (p :: rest)).map drawn).reverse.map Drawn.back := by
  have hp := C29_polygons_closed p rest h c' hr
  have hmem : ∀ (c : Contour PD) (x), x ∈ closedPairs c → x.2 ∈ c := by
    intro c x hx
    have := List.of_mem_zip hx
    rcases List.mem_append.1 this.2 with h | h
    · exact List.mem_of_mem_tail h
    · exact List.mem_of_mem_take h
  have ht : ∀ q ∈ c', ∃ q' ∈ p :: rest, q.ptype = q'.ptype := by
    intro q hq
    rw [C27_closed p rest h] at hr
    cases hr
    rcases List.mem_cons.1 hq with rfl | hq
    · exact ⟨p, List.mem_cons_self, rfl⟩
    · obtain ⟨q', hq', rfl⟩ := List.mem_map.1 hq
      exact ⟨q', List.mem_cons_of_mem _ (List.mem_reverse.1 hq'), rfl⟩
  rcases hu with hu | hu
  · have hd : ∀ c : Contour PD, (∀ q ∈ c, q.ptype = .curve) →
        (closedPairs c).map drawn = ((closedPairs c).map segment).map .curve := by
      intro c hc
      rw [List.map_map]
      apply List.map_congr_left
      intro x hx
      simp [drawn, hc _ (hmem c x hx)]
    rw [hd (p :: rest) hu, hd c' (fun q hq => by obtain ⟨q', h1, h2⟩ := ht q hq; rw [h2]; exact hu q' h1), hp]
    simp only [List.map_reverse, List.map_map]
    rfl
  · have hd : ∀ c : Contour PD, (∀ q ∈ c, q.ptype ≠ .curve) →
        (closedPairs c).map drawn = ((closedPairs c).map segment).map fun s => .line s.1 s.2.2.2 := by
      intro c hc
      rw [List.map_map]
      apply List.map_congr_left
      intro x hx
      simp [drawn, hc _ (hmem c x hx), segment]
    rw [hd (p :: rest) hu, hd c' (fun q hq => by obtain ⟨q', h1, h2⟩ := ht q hq; rw [h2]; exact hu q' h1), hp]
    simp only [List.map_reverse, List.map_map]
    rfl

example : ∀ q ∈ [Sample.cv 0 0 1 1 2 2, Sample.cv 3 0 1 1 2 2], q.ptype = .curve := by simp [Sample.cv]

end GP
