import Verif.Props.MfekPoint
import Verif.Props.Sample
/-!
# Names and smoothness of the editor's points (C124)
-/
open Fl
namespace GP
open Spec
variable {PD : Type}

/-- All three kinds of points can be smooth. -/
def Spec.smoothOf : MPoint PD → Bool
  | .cubic p => p.smooth
  | .quad p => p.smooth
  | .hyper p => p.smooth

/-- The name, for the two kinds of points that have one. -/
def Spec.nameOf : MPoint PD → Option (Option Str)
  | .cubic p => some p.name
  | .quad p => some p.name
  | .hyper _ => none

/-- The same but for name and smoothness. -/
def Spec.SameButNameSmooth (q r : MPoint PD) : Prop :=
  (∀ w, r.getHandle w = q.getHandle w) ∧ r.getPosition = q.getPosition ∧
    match q, r with
    | .cubic p, .cubic p' => p'.ptype = p.ptype ∧ p'.data = p.data
    | .quad p, .quad p' => p'.ptype = p.ptype ∧ p'.data = p.data
    | .hyper p, .hyper p' => p'.kind = p.kind ∧ p'.data = p.data
    | _, _ => False

/-- **C124**, names: the name that is set is the name read, for points that have one, and all else is kept; a point
without one is left alone. -/
theorem C124_name (q : MPoint PD) (n : Str) :
    nameOf (q.setName n) = (nameOf q).map (fun _ => some n) ∧ (∀ r : MPoint PD, r.getName = (nameOf r).getD none) ∧
      smoothOf (q.setName n) = smoothOf q ∧ SameButNameSmooth q (q.setName n) ∧ (nameOf q = none → q.setName n = q) := by
  refine ⟨?_, fun r => by cases r <;> rfl, ?_, ?_, ?_⟩
  · cases q <;> rfl
  · cases q <;> rfl
  · cases q <;> exact ⟨fun w => by cases w <;> rfl, rfl, rfl, rfl⟩
  · cases q <;> simp [nameOf, MPoint.setName]

/-- **C124**, smoothness, as far as it holds: that of cubic points.  Setting it keeps all else of any point. -/
theorem C124_smooth_partial (q : MPoint PD) (s : Bool) :
    (∀ p, q = .cubic p → (q.setSmooth s).getSmooth = some s ∧ smoothOf (q.setSmooth s) = s) ∧
      nameOf (q.setSmooth s) = nameOf q ∧ SameButNameSmooth q (q.setSmooth s) := by
  refine ⟨?_, ?_, ?_⟩
  · rintro p rfl; exact ⟨rfl, rfl⟩
  · cases q <;> rfl
  · cases q <;> exact ⟨fun w => by cases w <;> rfl, rfl, rfl, rfl⟩

/-- **C124**, smoothness, exactly: it can be read of cubic points only, and setting it has an effect on these only. -/
theorem C124_smooth_exact (q : MPoint PD) (s : Bool) :
    (q.getSmooth = some (smoothOf q) ↔ ∃ p, q = .cubic p) ∧
      (smoothOf (q.setSmooth s) = s ↔ (∃ p, q = .cubic p) ∨ smoothOf q = s) := by
  cases q <;> simp [MPoint.getSmooth, MPoint.setSmooth, smoothOf]

/-- **C124 is false of the code**: quadratic and hyperbezier points have a smoothness, which can be neither read nor
set. -/
theorem C124_false (p : QPoint PD) (r : HyperPoint PD) :
    ((MPoint.quad p).getSmooth = none ∧ ∃ s, smoothOf ((MPoint.quad p).setSmooth s) ≠ s) ∧
    (MPoint.hyper r).getSmooth = none ∧ ∃ s, smoothOf ((MPoint.hyper r).setSmooth s) ≠ s := by
  refine ⟨⟨rfl, !p.smooth, ?_⟩, rfl, !r.smooth, ?_⟩
  · simp [MPoint.setSmooth, smoothOf]
  · simp [MPoint.setSmooth, smoothOf]

example : nameOf (MPoint.hyper ({} : HyperPoint Unit)) = none := rfl
example : (MPoint.cubic (Sample.pt .curve 3 4)).setSmooth true ≠ .cubic (Sample.pt .curve 3 4) := by decide +kernel

end GP
