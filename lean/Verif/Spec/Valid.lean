import Verif.Spec.Edit
import Verif.Spec.PenOps
import Verif.Spec.Accuracy
import Verif.Spec.ContourIO
/-!
# Valid points
-/
open Fl
namespace GP.Spec
variable {PD : Type}

/-- All points pass the check of the library. -/
def AllValid (validData : PD → Bool) (c : Contour PD) : Prop := ∀ p ∈ c, p.isValid validData = true

/-- All points have a type and clean coordinates, also of the handles. -/
def AllClean (c : Contour PD) : Prop := ∀ p ∈ c, Clean p ∧ p.ptype ≠ .undefined

/-- The numbers that are written for the point `p` after `q` are clean. -/
def WrittenClean (q p : Point PD) : Prop :=
  (CleanNum p.x ∧ CleanNum p.y) ∧
  (p.ptype = .curve → (CleanNum (outPos q).1 ∧ CleanNum (outPos q).2) ∧ CleanNum (inPos p).1 ∧ CleanNum (inPos p).2) ∧
  (p.ptype = .qcurve → CleanNum (inPos p).1 ∧ CleanNum (inPos p).2)

/-- An edit that does no arithmetic but rounding, and adds only points of which `P` holds. -/
def Harmless (P : Contour PD → Prop) : ContourEdit PD → Prop
  | .matrix _ => False
  | .append d => P d
  | _ => True

/-- A history of edits, all of which are `ok`. -/
inductive EditedBy (near : SmoothTest) (ok : ContourEdit PD → Prop) : Contour PD → Contour PD → Prop
  | refl {c} : EditedBy near ok c c
  | step {c d e} {x : ContourEdit PD} : EditedBy near ok c d → ok x → Edited near x d e → EditedBy near ok c e

/-- The exact second coordinate of the image of `(x, y)` is so large that the computed one is no subnormal number. -/
def OffAxis (A : Affine) (x y : F32) : Prop := 1 / 2 ^ 126 + lineError A.b A.d A.f x y ≤ |line A.b A.d A.f x y|

/-- The same for a handle. -/
def OffAxisHandle (A : Affine) : Handle → Prop
  | .at x y => OffAxis A x y
  | .colocated => True

end GP.Spec
