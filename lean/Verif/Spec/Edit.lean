import Verif.Model.Mfek
import Verif.Model.Component
/-!
# Edits of contours, and which contours can be saved
-/
open Fl
namespace GP.Spec
variable {PD D : Type}

/-- A contour that can be saved: it has an on-curve point, and every point is of a type that a file can
have. -/
def Savable (c : Contour PD) : Prop :=
  (∃ p ∈ c, p.ptype ≠ .offcurve) ∧ ∀ p ∈ c, p.ptype ≠ .undefined ∧ p.ptype ≠ .qclose

/-- What the library can do to a contour. -/
inductive ContourEdit (PD : Type) where
  /-- `Reverse` -/
  | reverse
  /-- `RefigurePointTypes` -/
  | refigure
  /-- `RoundToInt` -/
  | round
  /-- `apply_matrix` on every point -/
  | matrix (m : Affine)
  /-- `check_smooth` on one point -/
  | smooth (i : Nat)
  /-- `set_open` of the editor -/
  | setOpen
  /-- `set_closed` of the editor -/
  | setClosed
  /-- `reverse_points` of the editor -/
  | reversePoints
  /-- `delete` of the editor -/
  | delete (i : Nat)
  /-- `sub` of the editor -/
  | slice (s e : Nat)
  /-- `append` of the editor -/
  | append (d : Contour PD)

/-- An edit of a cubic contour by the program that gives the contour `d`. -/
inductive Edited (near : SmoothTest) : ContourEdit PD → Contour PD → Contour PD → Prop
  | reverse {c d} : toReversed c = .ok d → Edited near .reverse c d
  | refigure {c} : Edited near .refigure c (refigure c)
  | round {c} : Edited near .round c (roundContour c)
  | matrix {c m} : Edited near (.matrix m) c (c.map fun p => p.applyMatrix m)
  | smooth {c d i b} : checkSmooth near c i = .ok (b, d) → Edited near (.smooth i) c d
  | setOpen {c d} : (MInner.cubic c).setOpen = .ok (.cubic d) → Edited near .setOpen c d
  | setClosed {c d} : (MInner.cubic c).setClosed = .ok (.cubic d) → Edited near .setClosed c d
  | reversePoints {c d} : (MInner.cubic c).reversePoints = .cubic d → Edited near .reversePoints c d
  | delete {c d i} : (MInner.cubic c).delete i = .ok (.cubic d) → Edited near (.delete i) c d
  | slice {c d s e} : (MInner.cubic c).sub s e = .ok (.cubic d) → Edited near (.slice s e) c d
  | append {c d r} : (MInner.cubic c).append (.cubic d) = .ok (.cubic r) → Edited near (.append d) c r

/-- The point with index `i` is there and on the curve. -/
def OnCurveAt (c : Contour PD) (i : Nat) : Prop := ∃ p, c[i]? = some p ∧ p.ptype ≠ .offcurve

/-- An edit that leaves an on-curve point there and adds no point that a file cannot have. -/
def KeepsSavable (c : Contour PD) : ContourEdit PD → Prop
  | .refigure => 2 ≤ c.length
  | .delete i => ∃ j, j ≠ i ∧ OnCurveAt c j
  | .slice s e => ∃ j, s ≤ j ∧ j < e ∧ OnCurveAt c j
  | .append d => ∀ p ∈ d, p.ptype ≠ .undefined ∧ p.ptype ≠ .qclose
  | _ => True

/-- A sequence of edits, each of which keeps what has to be kept. -/
inductive EditedTo (near : SmoothTest) : Contour PD → Contour PD → Prop
  | refl {c} : EditedTo near c c
  | step {c d e} {x : ContourEdit PD} : EditedTo near c d → KeepsSavable d x → Edited near x d e → EditedTo near c e

end GP.Spec
