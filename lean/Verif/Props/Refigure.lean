import Mathlib.Tactic.ByContra
import Verif.Lemmas.Refigure
import Verif.Props.Sample
/-!
# C30: refiguring point types
-/
open Fl
namespace GP
variable {PD : Type}
open Spec

/-- What refiguring computes, as a whole. -/
theorem C30_result (c : Contour PD) : refigure c = refigured (closing c) c := by
  rw [refigure_eq, closing_eq]

/-- Afterwards no handle lies on its point. -/
theorem C30_no_handle_on_point (c : Contour PD) : ∀ p ∈ refigure c, ¬ OnPoint p.a p ∧ ¬ OnPoint p.b p := by
  rw [C30_result]
  apply refigured_forall
  intro p _ t
  exact ⟨not_onPoint_settle p.a p, not_onPoint_settle p.b p⟩

/-- Positions, names, smooth flags and point data are unchanged, and so is the number of points. -/
theorem C30_unchanged (c : Contour PD) :
    (refigure c).map (fun p => (p.x, p.y, p.name, p.smooth, p.data)) =
      c.map (fun p => (p.x, p.y, p.name, p.smooth, p.data)) := by
  rw [C30_result, refigured_map _ (fun p t => rfl)]
  rfl

/-- A handle is removed if it lies on the point and unchanged otherwise. -/
theorem C30_handles (c : Contour PD) :
    (refigure c).map (fun p => (p.a, p.b)) = c.map (fun p => (settle p.a p, settle p.b p)) := by
  rw [C30_result, refigured_map _ (fun p t => rfl)]
  rfl

/-- Every type but the first agrees with the handles around it. -/
theorem C30_types (c : Contour PD) : ∀ x ∈ openPairs (refigure c), x.2.ptype = typeByHandles x.1.a x.2.b := by
  rw [C30_result]
  match c with
  | [] => intro x hx; cases hx
  | [p] => intro x hx; cases hx
  | p :: q :: rest =>
    have key : ∀ (l : List (Point PD)) (o o' : Point PD), (settled o).a = o'.a →
        ∀ x ∈ (o' :: List.zipWith (fun o r => retyped (settled o).a r) (o :: l) l).zip
          (List.zipWith (fun o r => retyped (settled o).a r) (o :: l) l),
        x.2.ptype = typeByHandles x.1.a x.2.b := by
      intro l
      induction l with
      | nil => intro o o' _ x hx; cases hx
      | cons r l ih =>
        intro o o' ho x hx
        rw [List.zipWith_cons_cons, List.zip_cons_cons] at hx
        rcases List.mem_cons.1 hx with rfl | hx
        · show typeByHandles _ _ = _
          rw [← ho]; rfl
        · exact ih r (retyped (settled o).a r) rfl x hx
    apply key
    split <;> rfl

/-- The first point of a contour with at least two points is a `move` point exactly if it was. -/
theorem C30_first_move (p q : Point PD) (rest : Contour PD) :
    ∃ p' rest', refigure (p :: q :: rest) = p' :: rest' ∧ (p'.ptype = .move ↔ p.ptype = .move) := by
  rw [C30_result]
  refine ⟨_, _, rfl, ?_⟩
  split
  · simp_all
  · next h =>
    simp only [h, iff_false]
    exact typeByHandles_ne_move _ _

/-- Two passes are always enough: a third changes nothing. -/
theorem C30_two_passes (c : Contour PD) : refigure (refigure (refigure c)) = refigure (refigure c) := by
  have h : ∀ d : Contour PD, refigure d = refigured (closing d) d := C30_result
  rw [h (refigure (refigure c)), h (refigure c), h c, refigured_refigured, refigured_refigured,
    refigured_refigured, closing_refigured, closing_refigured]

/-- One pass is enough unless the contour is closed, its last point has an outgoing handle on
itself and its first point keeps no incoming handle. -/
theorem C30_idempotent_iff (p z : Point PD) (mid : Contour PD) :
    refigure (refigure (p :: mid ++ [z])) = refigure (p :: mid ++ [z]) ↔
      ¬ (p.ptype ≠ .move ∧ OnPoint z.a z ∧ settle p.b p = .colocated) := by
  have h : ∀ d : Contour PD, refigure d = refigured (closing d) d := C30_result
  rw [h (refigure _), h (p :: mid ++ [z]), refigured_refigured, closing_refigured]
  have hl : (p :: mid ++ [z]).getLast? = some z := List.getLast?_concat
  have hcl : closing (p :: mid ++ [z]) = z.a := by unfold closing; rw [hl]
  rw [hl, hcl]
  simp only []
  have hs : ∃ q rest, p :: mid ++ [z] = p :: q :: rest := by
    cases mid with
    | nil => exact ⟨z, [], rfl⟩
    | cons q mid => exact ⟨q, mid ++ [z], rfl⟩
  obtain ⟨q, rest, e⟩ := hs
  rw [e, refigured, refigured, List.cons.injEq]
  simp only [and_true]
  by_cases hm : p.ptype = .move
  · simp [hm]
  · rw [if_neg hm, if_neg hm]
    simp only [ne_eq, hm, not_false_eq_true, true_and]
    have : (retyped (settled z).a p = retyped z.a p) ↔
        typeByHandles (settled z).a (settled p).b = typeByHandles z.a (settled p).b := by
      constructor
      · intro e; exact congrArg Point.ptype e
      · intro e; unfold retyped; rw [e]
    rw [this]
    show typeByHandles (settle z.a z) (settle p.b p) = typeByHandles z.a (settle p.b p) ↔ _
    by_cases hz : OnPoint z.a z
    · simp only [settle, hz, if_true, true_and]
      have hzc : z.a ≠ .colocated := by rintro e; rw [e] at hz; obtain ⟨_, _, e', _⟩ := hz; cases e'
      change typeByHandles .colocated (settle p.b p) = typeByHandles z.a (settle p.b p) ↔ ¬ settle p.b p = .colocated
      unfold typeByHandles
      by_cases hb : settle p.b p = .colocated
      · simp [hb, hzc]
      · simp [hb]
    · simp [settle, hz]

/-- A contour whose handles do not lie on their points (for instance the result of a refiguring, or of
a drawing) is refigured in one pass. -/
theorem C30_partial (c : Contour PD) (h : ∀ p ∈ c, ¬ OnPoint p.a p) : refigure (refigure c) = refigure c := by
  cases c with
  | nil => rfl
  | cons p rest =>
    rcases List.eq_nil_or_concat rest with rfl | ⟨mid, z, rfl⟩
    · have h' : ∀ d : Contour PD, refigure d = refigured (closing d) d := C30_result
      rw [h', h' [p], refigured, refigured, settled_again]
    · rw [List.concat_eq_append, ← List.cons_append, C30_idempotent_iff]
      rintro ⟨_, hz, _⟩
      exact h z (by simp) hz

/-- C30's last clause is false in general: this closed contour needs two passes. -/
theorem C30_false : ∃ c : Contour Unit, refigure (refigure c) ≠ refigure c := by
  refine ⟨Sample.pt .line 0 0 :: [Sample.pt .line 1 0] ++
    [{ Sample.pt .line 1 1 with a := .at (Sample.f 1) (Sample.f 1) }], ?_⟩
  rw [Ne, C30_idempotent_iff]
  intro h
  apply h
  decide +kernel

/-- A contour to which `C30_partial` applies, although an incoming handle lies on its point. -/
example : ∀ p ∈ [Sample.cv 0 0 1 1 0 0, Sample.pt .line 4 4], ¬ OnPoint p.a p := by decide +kernel

/-- Whole outlines are refigured contour by contour. -/
theorem C30_outline (o : Outline PD) : refigureOutline o = o.map fun c => refigured (closing c) c := by
  unfold refigureOutline
  apply List.map_congr_left
  intro c _
  exact C30_result c

end GP
