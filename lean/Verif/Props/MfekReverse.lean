import Verif.Lemmas.Mfek
import Verif.Props.PenOpsExact
import Verif.Props.Reverse
/-!
# Reversing a contour in the editor (C108)
-/
open Fl
namespace GP
variable {PD : Type}
open Spec

theorem openPairs_reverse : ∀ c : Contour PD, openPairs c.reverse = (openPairs c).reverse.map Prod.swap := by
  intro c
  induction c with
  | nil => rfl
  | cons p c ih =>
    cases c with
    | nil => rfl
    | cons q c =>
      have key : ∀ (l : List (Point PD)) (a b : Point PD), openPairs (l ++ [a] ++ [b]) = openPairs (l ++ [a]) ++ [(a, b)] := by
        intro l
        induction l with
        | nil => intro a b; rfl
        | cons x l ihl =>
          intro a b
          have := ihl a b
          cases l with
          | nil => rfl
          | cons y l =>
            simp only [openPairs, List.cons_append, List.tail_cons, List.zip_cons_cons] at this ⊢
            rw [this]
      rw [List.reverse_cons, List.reverse_cons, key, ← List.reverse_cons, ih]
      simp [openPairs]

theorem closedPairs_eq (p : Point PD) (l : Contour PD) (z : Point PD) :
    closedPairs (p :: l ++ [z]) = openPairs (p :: l ++ [z]) ++ [(z, p)] := by
  unfold closedPairs openPairs
  induction l generalizing p with
  | nil => rfl
  | cons q l ih =>
    have key : ∀ (l : List (Point PD)) (q : Point PD), (q :: l ++ [z]).zip (l ++ [z] ++ [p]) = (q :: l ++ [z]).zip (l ++ [z]) ++ [(z, p)] := by
      intro l
      induction l with
      | nil => intro q; rfl
      | cons r l ihl => intro q; exact congrArg (List.cons (q, r)) (ihl r)
    simp only [List.cons_append, List.tail_cons, List.take_succ_cons, List.take_zero, List.zip_cons_cons]
    have := key l q
    simp only [List.cons_append] at this
    rw [this]

/-- The pairs of the reversed closed contour: those of the contour, turned around, in the opposite order, from
another start. -/
theorem closedPairs_reverse (c : Contour PD) :
    ∃ s t, ((closedPairs c).map Prod.swap).reverse = s ++ t ∧ closedPairs c.reverse = t ++ s := by
  match c with
  | [] => exact ⟨[], [], rfl, rfl⟩
  | [p] => exact ⟨[], [(p, p)], rfl, rfl⟩
  | p :: q :: rest =>
    obtain ⟨l, z, hl⟩ : ∃ l z, q :: rest = l ++ [z] := ⟨(q :: rest).dropLast, (q :: rest).getLast (by simp), (List.dropLast_append_getLast _).symm⟩
    rw [hl]
    have e1 : closedPairs (p :: (l ++ [z])) = openPairs (p :: (l ++ [z])) ++ [(z, p)] := closedPairs_eq p l z
    have e2 : (p :: (l ++ [z])).reverse = z :: l.reverse ++ [p] := by simp
    have e3 : openPairs (z :: l.reverse ++ [p]) = (openPairs (p :: (l ++ [z]))).reverse.map Prod.swap := by rw [← e2, openPairs_reverse]
    refine ⟨[(p, z)], (openPairs (p :: (l ++ [z]))).reverse.map Prod.swap, ?_, ?_⟩
    · rw [e1]; simp
    · rw [e2, closedPairs_eq, e3]

theorem segment_swap_iff (x : Point PD × Point PD) :
    segment x.swap = Poly.back (segment x) ↔ outPos x.2 = inPos x.2 ∧ outPos x.1 = inPos x.1 := by
  unfold segment Poly.back
  simp only [Prod.fst_swap, Prod.snd_swap, Prod.mk.injEq, true_and, and_true]
  exact and_congr_right fun _ => eq_comm

theorem mem_closedPairs_fst {c : Contour PD} {p : Point PD} (h : p ∈ c) : ∃ q, (p, q) ∈ closedPairs c := by
  have hl : (closedPairs c).map Prod.fst = c := by
    unfold closedPairs
    apply List.map_fst_zip
    cases c <;> simp
  rw [← hl] at h
  obtain ⟨x, hx, rfl⟩ := List.mem_map.1 h
  exact ⟨x.2, hx⟩

theorem mem_of_closedPairs {c : Contour PD} {x : Point PD × Point PD} (h : x ∈ closedPairs c) : x.1 ∈ c ∧ x.2 ∈ c := by
  have := List.of_mem_zip h
  refine ⟨this.1, ?_⟩
  rcases List.mem_append.1 this.2 with h | h
  · exact List.mem_of_mem_tail h
  · exact List.mem_of_mem_take h

/-- **C108**, as far as it holds: a closed cubic contour each of whose points has its two handles in the same
place (or none) draws the same segments backwards after `reverse_points`. -/
theorem C108_partial (c : Contour PD) (op : Option (ContourOp (MContour PD))) (h : ∀ p ∈ c, outPos p = inPos p) :
    ∃ c', (⟨.cubic c, op⟩ : MContour PD).reversePoints = ⟨.cubic c', op⟩ ∧ DrawsBackwards c c' := by
  refine ⟨c.reverse, rfl, ?_⟩
  obtain ⟨s, t, h1, h2⟩ := closedPairs_reverse c
  have e : ((closedPairs c).map segment).reverse.map Poly.back = (((closedPairs c).map Prod.swap).reverse).map segment := by
    rw [← List.map_reverse, ← List.map_reverse, List.map_map, List.map_map]
    apply List.map_congr_left
    intro x hx
    have := mem_of_closedPairs (List.mem_reverse.1 hx)
    exact ((segment_swap_iff x).2 ⟨h _ this.2, h _ this.1⟩).symm
  exact ⟨s.map segment, t.map segment, by rw [e, h1, List.map_append], by rw [h2, List.map_append]⟩

/-- **C108**, exactly, for points in different places: reversing in the editor draws the segments backwards if
and only if no point has its two handles in different places.  The handles are not exchanged. -/
theorem C108_exact (c : Contour PD) (op : Option (ContourOp (MContour PD))) (hn : (c.map fun p => (p.x, p.y)).Nodup) :
    ∃ c', (⟨.cubic c, op⟩ : MContour PD).reversePoints = ⟨.cubic c', op⟩ ∧
      (DrawsBackwards c c' ↔ ∀ p ∈ c, outPos p = inPos p) := by
  refine ⟨c.reverse, rfl, ?_, fun h => ?_⟩
  · rintro ⟨s, t, h1, h2⟩ p hp
    obtain ⟨q, hx⟩ := mem_closedPairs_fst hp
    have hm : Poly.back (segment (p, q)) ∈ (closedPairs c.reverse).map segment := by
      have : Poly.back (segment (p, q)) ∈ s ++ t := by
        rw [← h1]
        exact List.mem_map_of_mem (List.mem_reverse.2 (List.mem_map_of_mem hx))
      rw [h2]
      rcases List.mem_append.1 this with h | h
      · exact List.mem_append_right _ h
      · exact List.mem_append_left _ h
    obtain ⟨y, hy, e⟩ := List.mem_map.1 hm
    have hy' : y.1 ∈ c ∧ y.2 ∈ c := by
      have := mem_of_closedPairs hy
      exact ⟨List.mem_reverse.1 this.1, List.mem_reverse.1 this.2⟩
    have hxm := mem_of_closedPairs hx
    have e' := e
    unfold segment Poly.back at e'
    simp only [Prod.mk.injEq] at e'
    have ey1 : y.1 = q := inj_of_nodup_map hn hy'.1 hxm.2 (Prod.ext e'.1.1 e'.1.2)
    have ey2 : y.2 = p := inj_of_nodup_map hn hy'.2 hxm.1 (Prod.ext e'.2.2.2.1 e'.2.2.2.2)
    have : segment (Prod.swap (p, q)) = Poly.back (segment (p, q)) := by
      rw [← e, ← ey1, ← ey2]
      rfl
    exact ((segment_swap_iff (p, q)).1 this).2
  · obtain ⟨c', h1, h2⟩ := C108_partial c op h
    cases h1
    exact h2

/-- C108 as stated is false: three smooth curves; after reversing, each handle pulls the wrong way. -/
theorem C108_false : ∃ c : Contour Unit, isClosed c = true ∧ (∀ p ∈ c, p.ptype = .curve) ∧ c.length = 3 ∧
    ∀ op, ∃ c', (⟨.cubic c, op⟩ : MContour Unit).reversePoints = ⟨.cubic c', op⟩ ∧ ¬ DrawsBackwards c c' := by
  refine ⟨[Sample.cv 0 0 1 1 2 2, Sample.cv 10 0 11 1 12 2, Sample.cv 10 10 11 11 12 12], by decide +kernel, by decide +kernel, rfl, ?_⟩
  intro op
  obtain ⟨c', h1, h2⟩ := C108_exact (PD := Unit) [Sample.cv 0 0 1 1 2 2, Sample.cv 10 0 11 1 12 2, Sample.cv 10 10 11 11 12 12] op
    (by decide +kernel)
  refine ⟨c', h1, fun h => ?_⟩
  have := h2.1 h _ (List.mem_cons_self ..)
  revert this
  decide +kernel

/-- **C108**: whether the contour is open is decided by its first point, and that is another one afterwards.  An
open contour stays open exactly if it also ends in a move point. -/
theorem C108_open (p z : Point PD) (mid : Contour PD) (op : Option (ContourOp (MContour PD))) :
    (⟨.cubic (p :: mid ++ [z]), op⟩ : MContour PD).reversePoints.isOpen = .ok (decide (z.ptype = .move)) ∧
    (⟨.cubic (p :: mid ++ [z]), op⟩ : MContour PD).isOpen = .ok (decide (p.ptype = .move)) := by
  have key : ∀ (a b : Point PD) (l : List (Point PD)), isOpen (a :: l ++ [b]) = decide (a.ptype = .move) := by
    intro a b l
    cases l <;> simp only [isOpen, List.cons_append, List.nil_append] <;> exact (Bool.beq_eq_decide_eq _ _)
  refine ⟨?_, congrArg Out.ok (key p z mid)⟩
  show Out.ok (isOpen (p :: mid ++ [z]).reverse) = _
  have : (p :: mid ++ [z]).reverse = z :: mid.reverse ++ [p] := by simp
  rw [this, key]

/-- C108 is false of open contours: one that ends in a line or curve point is closed afterwards. -/
theorem C108_false_open (p z : Point PD) (mid : Contour PD) (op : Option (ContourOp (MContour PD))) (hp : p.ptype = .move)
    (hz : z.ptype ≠ .move) :
    (⟨.cubic (p :: mid ++ [z]), op⟩ : MContour PD).isOpen = .ok true ∧
    (⟨.cubic (p :: mid ++ [z]), op⟩ : MContour PD).reversePoints.isOpen = .ok false := by
  obtain ⟨h1, h2⟩ := C108_open p z mid op
  rw [h1, h2]
  simp [hp, hz]

/-- **C108**: reversing twice gives the contour back, of whatever kind. -/
theorem C108_twice (c : MContour PD) : c.reversePoints.reversePoints = c := by
  obtain ⟨i, op⟩ := c
  unfold MContour.reversePoints
  cases i <;> simp [MInner.reversePoints]

/-- Contours that meet the hypotheses: a triangle, and one with handles that is drawn differently. -/
example : (∀ p ∈ ([Sample.pt .line 0 0, Sample.pt .line 10 0, Sample.pt .line 10 10] : Contour Unit), outPos p = inPos p) ∧
    (([Sample.cv 0 0 1 1 2 2, Sample.cv 10 0 11 1 12 2] : Contour Unit).map fun p => (p.x, p.y)).Nodup ∧
    ((Sample.pt .move 0 0 : Point Unit).ptype = .move ∧ (Sample.pt .line 10 0 : Point Unit).ptype ≠ .move) := by
  decide +kernel

end GP
