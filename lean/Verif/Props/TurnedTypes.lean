import Verif.Props.Refigure
import Verif.Props.MfekReverse
import Verif.Props.Sample
/-!
# C150: reversed contours whose point types are refigured
-/
open Fl
namespace GP
variable {PD : Type}
open Spec

/-- Position and handles of a point. -/
def handleKey (p : Point PD) : (F32 × F32) × Handle × Handle := ((p.x, p.y), p.a, p.b)

/-- A segment drawn by the handles in it. -/
def keyDrawn (x : ((F32 × F32) × Handle × Handle) × ((F32 × F32) × Handle × Handle)) : Drawn :=
  if x.1.2.1 = .colocated ∧ x.2.2.2 = .colocated then .line x.1.1 x.2.1
  else .curve (x.1.1, (match x.1.2.1 with | .at a b => (a, b) | .colocated => x.1.1), (match x.2.2.2 with | .at a b => (a, b) | .colocated => x.2.1), x.2.1)

def byHandles (x : Point PD × Point PD) : Drawn := keyDrawn (handleKey x.1, handleKey x.2)

theorem byHandles_eq (x : Point PD × Point PD) : byHandles x = if x.1.a = .colocated ∧ x.2.b = .colocated then .line (x.1.x, x.1.y) (x.2.x, x.2.y)
    else .curve (segment x) := by
  unfold byHandles keyDrawn handleKey segment outPos inPos
  obtain ⟨p, q⟩ := x
  simp only
  split
  · rfl
  · cases p.a <;> cases q.b <;> rfl

theorem drawn_byHandles {x : Point PD × Point PD} (h : x.2.ptype = typeByHandles x.1.a x.2.b) : drawn x = byHandles x := by
  rw [byHandles_eq, drawn, h, typeByHandles]
  by_cases k : x.1.a = .colocated ∧ x.2.b = .colocated
  · simp [k]
  · simp [k]

theorem byHandles_back (x : Point PD × Point PD) : byHandles (swapped x.2, swapped x.1) = (byHandles x).back := by
  rw [byHandles_eq, byHandles_eq]
  by_cases k : x.1.a = .colocated ∧ x.2.b = .colocated
  · rw [if_pos k, if_pos (show (swapped x.2, swapped x.1).1.a = _ ∧ (swapped x.2, swapped x.1).2.b = _ from ⟨k.2, k.1⟩)]; rfl
  · rw [if_neg k, if_neg (show ¬ ((swapped x.2, swapped x.1).1.a = _ ∧ (swapped x.2, swapped x.1).2.b = _) from fun e => k ⟨e.2, e.1⟩)]; rfl

theorem map_byHandles (l m : List (Point PD)) : (l.zip m).map byHandles = ((l.map handleKey).zip (m.map handleKey)).map keyDrawn := by
  rw [List.zip_map, List.map_map]
  rfl

theorem closed_keys {c d : Contour PD} (h : c.map handleKey = d.map handleKey) : (closedPairs c).map byHandles = (closedPairs d).map byHandles := by
  unfold closedPairs
  rw [map_byHandles, map_byHandles, List.map_append, List.map_append, List.map_tail, List.map_tail, List.map_take, List.map_take, h]

theorem open_keys {c d : Contour PD} (h : c.map handleKey = d.map handleKey) : (openPairs c).map byHandles = (openPairs d).map byHandles := by
  unfold openPairs
  rw [map_byHandles, map_byHandles, List.map_tail, List.map_tail, h]

/-- No handle lies on its point. -/
def Clear (c : Contour PD) : Prop := ∀ p ∈ c, ¬ OnPoint p.a p ∧ ¬ OnPoint p.b p

theorem refigure_keys {c : Contour PD} (h : Clear c) : (refigure c).map handleKey = c.map handleKey := by
  rw [C30_result, refigured_map _ (fun p t => rfl)]
  refine List.map_congr_left fun p hp => ?_
  obtain ⟨h1, h2⟩ := h p hp
  show handleKey (settled p) = handleKey p
  unfold settled settle
  rw [if_neg h1, if_neg h2]

theorem two_points {c : Contour PD} (h : 2 ≤ c.length) : ∃ p mid z, c = p :: mid ++ [z] := by
  cases c with
  | nil => simp at h
  | cons p c =>
    rcases List.eq_nil_or_concat c with rfl | ⟨mid, z, rfl⟩
    · simp at h
    · exact ⟨p, mid, z, by simp⟩

/-- The pairs of a refigured contour, closed. -/
theorem refigure_shape (p z : Point PD) (mid : Contour PD) : ∃ p' mid' z', refigure (p :: mid ++ [z]) = p' :: mid' ++ [z'] ∧
    p' = (if p.ptype = .move then { settled p with ptype := .move } else retyped z.a p) ∧ z'.a = settle z.a z := by
  have hl : (refigure (p :: mid ++ [z])).map (fun p => p.a) = (p :: mid ++ [z]).map (fun p => settle p.a p) := by
    have := congrArg (List.map Prod.fst) (C30_handles (p :: mid ++ [z]))
    rwa [List.map_map, List.map_map] at this
  have hlen : (refigure (p :: mid ++ [z])).length = mid.length + 2 := by simpa using congrArg List.length hl
  obtain ⟨p', mid', z', e⟩ := two_points (c := refigure (p :: mid ++ [z])) (by omega)
  refine ⟨p', mid', z', e, ?_, ?_⟩
  · have hc : closing (p :: mid ++ [z]) = z.a := by unfold closing; rw [List.getLast?_concat]
    rw [C30_result, hc] at e
    cases mid with
    | nil => exact (List.cons.inj e).1.symm
    | cons q mid => exact (List.cons.inj e).1.symm
  · rw [e, List.map_append, List.map_append] at hl
    simpa using (List.append_inj' hl rfl).2

/-- A closed contour with clear handles, refigured, is drawn by its handles. -/
theorem refigure_drawn_closed {c : Contour PD} (h : Clear c) (h2 : 2 ≤ c.length) (hm : ∀ p ∈ c.head?, p.ptype ≠ .move) :
    (closedPairs (refigure c)).map drawn = (closedPairs c).map byHandles := by
  rw [← closed_keys (refigure_keys h)]
  obtain ⟨p, mid, z, rfl⟩ := two_points h2
  have ht := C30_types (p :: mid ++ [z])
  obtain ⟨p', mid', z', e, e1, e2⟩ := refigure_shape p z mid
  rw [e] at ht ⊢
  rw [closedPairs_eq]
  refine List.map_congr_left fun x hx => ?_
  rcases List.mem_append.1 hx with hx | hx
  · exact drawn_byHandles (ht x hx)
  · rw [List.mem_singleton.1 hx]
    apply drawn_byHandles
    show p'.ptype = typeByHandles z'.a p'.b
    rw [e2, e1, if_neg (hm p (by simp)), settle, if_neg (h z (by simp)).1]
    rfl

theorem refigure_drawn_open (c : Contour PD) (h : Clear c) : (openPairs (refigure c)).map drawn = (openPairs c).map byHandles := by
  rw [← open_keys (refigure_keys h)]
  exact List.map_congr_left fun x hx => drawn_byHandles (C30_types c x hx)

theorem clear_swapped {c : Contour PD} (h : Clear c) {d : Contour PD} (hd : ∀ q ∈ d, ∃ p ∈ c, handleKey q = handleKey (swapped p)) : Clear d := by
  intro q hq
  obtain ⟨p, hp, e⟩ := hd q hq
  obtain ⟨h1, h2⟩ := h p hp
  simp only [handleKey, swapped, Prod.mk.injEq] at e
  obtain ⟨⟨ex, ey⟩, ea, eb⟩ := e
  constructor
  · rintro ⟨x, y, k, k1, k2⟩
    exact h2 ⟨x, y, by rw [← ea, k], by rwa [← ex], by rwa [← ey]⟩
  · rintro ⟨x, y, k, k1, k2⟩
    exact h1 ⟨x, y, by rw [← eb, k], by rwa [← ex], by rwa [← ey]⟩

theorem closed_back {p : Point PD} {rest r : Contour PD} (h : p.ptype ≠ .move) (hr : toReversed (p :: rest) = .ok r) :
    (closedPairs r).map byHandles = ((closedPairs (p :: rest)).map byHandles).reverse.map Drawn.back := by
  rw [C27_closed p rest h] at hr
  cases hr
  have : closedPairs (swapped p :: rest.reverse.map swapped) = ((closedPairs (p :: rest)).reverse).map fun x => (swapped x.2, swapped x.1) := by
    unfold closedPairs
    rw [map_zip_reverse _ _ (by simp)]
    simp only [List.tail_cons, List.take_succ_cons, List.take_zero, List.reverse_cons, List.reverse_append,
      List.reverse_nil, List.nil_append, List.cons_append]
    rw [show swapped p :: rest.reverse.map swapped = (p :: rest.reverse).map swapped from rfl,
      show rest.reverse.map swapped ++ [swapped p] = (rest.reverse ++ [p]).map swapped by simp]
    rw [List.zip_map, ← List.zip_swap (p :: rest.reverse), List.map_map]
    rfl
  rw [this, ← List.map_reverse, List.map_map, List.map_map]
  exact List.map_congr_left fun x _ => byHandles_back x

theorem refigure_clear (c : Contour PD) : Clear (refigure c) := C30_no_handle_on_point c

/-- A closed contour with types that agree with its handles: reversed and refigured, the same is drawn backwards. -/
theorem turned_closed {c r : Contour PD} (h : Clear c) (h2 : 2 ≤ c.length) (hm : ∀ p ∈ c.head?, p.ptype ≠ .move) (hr : toReversed c = .ok r) :
    (closedPairs (refigure r)).map drawn = ((closedPairs c).map byHandles).reverse.map Drawn.back := by
  cases c with
  | nil => simp at h2
  | cons p rest =>
    have hp := hm p (by simp)
    rw [← closed_back hp hr]
    rw [C27_closed p rest hp] at hr
    cases hr
    refine refigure_drawn_closed (clear_swapped h ?_) (by simpa using h2) (by simpa [swapped] using hp)
    intro q hq
    rcases List.mem_cons.1 hq with rfl | hq
    · exact ⟨p, List.mem_cons_self, rfl⟩
    · obtain ⟨q', hq', rfl⟩ := List.mem_map.1 hq
      exact ⟨q', List.mem_cons_of_mem _ (List.mem_reverse.1 hq'), rfl⟩

/-- **C150**, exactly, for closed contours: after refiguring, reversing and refiguring again a closed contour draws, by its types, what it drew
after the first refiguring, backwards, exactly unless the outgoing handle of the last point lay on that point and the first point keeps no
incoming handle. -/
theorem C150_exact (p z : Point PD) (mid r : Contour PD) (hp : p.ptype ≠ .move) (hr : toReversed (refigure (p :: mid ++ [z])) = .ok r) :
    (closedPairs (refigure r)).map drawn = ((closedPairs (refigure (p :: mid ++ [z]))).map drawn).reverse.map Drawn.back ↔
      ¬ (OnPoint z.a z ∧ settle p.b p = .colocated) := by
  have cl := refigure_clear (p :: mid ++ [z])
  obtain ⟨p', mid', z', e, e1, e2⟩ := refigure_shape p z mid
  rw [if_neg hp] at e1
  have hp' : p'.ptype ≠ .move := by rw [e1]; exact typeByHandles_ne_move _ _
  rw [turned_closed cl (by rw [e]; simp) (by rw [e]; simpa using hp') hr]
  constructor
  · rintro h ⟨k1, k2⟩
    have inj : Function.Injective Drawn.back := by
      intro a b hab
      have bb : ∀ d : Drawn, d.back.back = d := by rintro (_ | _) <;> rfl
      rw [← bb a, hab, bb]
    have h := List.reverse_injective (List.map_injective_iff.2 inj h)
    rw [e, closedPairs_eq, List.map_append, List.map_append] at h
    have h := (List.append_inj' h rfl).2
    have h : byHandles (z', p') = drawn (z', p') := by simpa using h
    have b : p'.b = .colocated := by rw [e1]; exact k2
    have a : z'.a = .colocated := by rw [e2, settle, if_pos k1]
    have t : p'.ptype = .curve := by
      rw [e1]
      show typeByHandles z.a (settle p.b p) = .curve
      obtain ⟨x, y, k, -⟩ := k1
      rw [k]
      simp [typeByHandles]
    rw [byHandles_eq, if_pos ⟨a, b⟩, drawn, if_pos t] at h
    cases h
  · intro h
    rw [← refigure_drawn_closed cl (by rw [e]; simp) (by rw [e]; simpa using hp'), (C30_idempotent_iff p z mid).2 fun k => h k.2]

/-- **C150**, as far as it holds: a closed contour none of whose handles lies on its point. -/
theorem C150_partial (p z : Point PD) (mid r : Contour PD) (hp : p.ptype ≠ .move) (h : ¬ OnPoint z.a z)
    (hr : toReversed (refigure (p :: mid ++ [z])) = .ok r) :
    (closedPairs (refigure r)).map drawn = ((closedPairs (refigure (p :: mid ++ [z]))).map drawn).reverse.map Drawn.back :=
  (C150_exact p z mid r hp hr).2 fun k => h k.1

/-- **C150**: refigured twice first, every closed contour. -/
theorem C150_twice (p z : Point PD) (mid r : Contour PD) (hp : p.ptype ≠ .move) (hr : toReversed (refigure (refigure (p :: mid ++ [z]))) = .ok r) :
    (closedPairs (refigure r)).map drawn = ((closedPairs (refigure (refigure (p :: mid ++ [z])))).map drawn).reverse.map Drawn.back := by
  obtain ⟨p', mid', z', e, e1, -⟩ := refigure_shape p z mid
  have cl := refigure_clear (p :: mid ++ [z])
  rw [if_neg hp] at e1
  rw [e] at cl hr ⊢
  exact C150_partial p' z' mid' r (by rw [e1]; exact typeByHandles_ne_move _ _) (cl z' (by simp)).1 hr

/-- **C150** for open contours: all of them. -/
theorem C150_open (p z : Point PD) (mid r : Contour PD) (hp : p.ptype = .move) (hr : toReversed (refigure (p :: mid ++ [z])) = .ok r) :
    (openPairs (refigure r)).map drawn = ((openPairs (refigure (p :: mid ++ [z]))).map drawn).reverse.map Drawn.back ∧ isOpen (refigure r) = true := by
  have cl := refigure_clear (p :: mid ++ [z])
  have id : refigure (refigure (p :: mid ++ [z])) = refigure (p :: mid ++ [z]) := (C30_idempotent_iff p z mid).2 fun k => k.1 hp
  obtain ⟨p', mid', z', e, e1, -⟩ := refigure_shape p z mid
  rw [if_pos hp] at e1
  have hp' : p'.ptype = .move := by rw [e1]
  have dr := refigure_drawn_open _ cl
  rw [id] at dr
  rw [dr]
  rw [e] at cl hr ⊢
  rw [toReversed_open hp'] at hr
  cases hr
  have keys : ({ swapped z' with ptype := .move } :: mid'.reverse.map swapped ++
      [{ swapped p' with ptype := typeByHandles ((mid' ++ [z']).head (by simp)).b p'.a }] : Contour PD).map handleKey =
      ((p' :: mid' ++ [z']).reverse.map swapped).map handleKey := by
    simp [handleKey, swapped]
  constructor
  · rw [refigure_drawn_open _ (clear_swapped cl ?_), open_keys keys]
    · have : openPairs ((p' :: mid' ++ [z']).reverse.map swapped) = ((openPairs (p' :: mid' ++ [z'])).reverse).map fun x => (swapped x.2, swapped x.1) := by
        have := openPairs_reverse (p' :: mid' ++ [z'])
        have m : ∀ c : Contour PD, openPairs (c.map swapped) = (openPairs c).map fun x => (swapped x.1, swapped x.2) := by
          intro c
          unfold openPairs
          rw [← List.map_tail, List.zip_map]
          rfl
        rw [m, this, List.map_map]
        rfl
      rw [this, ← List.map_reverse, List.map_map, List.map_map]
      exact List.map_congr_left fun x _ => byHandles_back x
    · intro q hq
      have : handleKey q ∈ ((p' :: mid' ++ [z']).reverse.map swapped).map handleKey := by rw [← keys]; exact List.mem_map_of_mem hq
      obtain ⟨q', h1, h2⟩ := List.mem_map.1 this
      obtain ⟨q'', h3, rfl⟩ := List.mem_map.1 h1
      exact ⟨q'', List.mem_reverse.1 h3, h2.symm⟩
  · obtain ⟨a, b, c, f, f1, -⟩ := refigure_shape ({ swapped z' with ptype := .move } : Point PD)
      { swapped p' with ptype := typeByHandles ((mid' ++ [z']).head (by simp)).b p'.a } (mid'.reverse.map swapped)
    rw [f, f1, if_pos rfl]
    simp [isOpen]

/-- **C150 is false of the code**: a closed contour whose last point has its outgoing handle on itself needs two passes. -/
theorem C150_false : ∃ (c r : Contour Unit), isClosed c = true ∧ toReversed (refigure c) = .ok r ∧
    (closedPairs (refigure r)).map drawn ≠ ((closedPairs (refigure c)).map drawn).reverse.map Drawn.back := by
  refine ⟨[Sample.pt .line 0 0, Sample.pt .line 4 0, { Sample.pt .line 4 4 with a := .at (Sample.f 4) (Sample.f 4) }], _, rfl, rfl, fun h => ?_⟩
  refine (C150_exact (Sample.pt .line 0 0) _ [Sample.pt .line 4 0] _ (by simp [Sample.pt]) rfl).1 h ⟨⟨_, _, rfl, ?_, ?_⟩, rfl⟩ <;> decide +kernel

/-- A triangle with one curved side, whose reversal without refiguring draws another side as the curve (C29_false). -/
example : (Sample.pt .line 0 0).ptype ≠ .move ∧ ¬ OnPoint (Sample.pt .line 4 4).a (Sample.pt .line 4 4) ∧
    ∃ r, toReversed (refigure ({ Sample.pt .line 0 0 with a := .at (Sample.f 1) (Sample.f 1) } :: [{ Sample.pt .curve 4 0 with b := .at (Sample.f 3) (Sample.f 1) }] ++
      [Sample.pt .line 4 4])) = .ok r :=
  ⟨by simp [Sample.pt], (fun ⟨_, _, e, _⟩ => by cases e), _, rfl⟩

/-- An open contour of a line and a curve. -/
example : (Sample.pt .move 0 0).ptype = .move ∧
    ∃ r, toReversed (refigure (Sample.pt .move 0 0 :: [Sample.pt .line 4 0] ++ [Sample.cv 9 9 7 7 8 8])) = .ok r :=
  ⟨rfl, _, rfl⟩

end GP
