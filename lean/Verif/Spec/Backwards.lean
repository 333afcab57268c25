import Verif.Spec.StartPoint
import Verif.Spec.Reverse
/-!
# Specification of contours listed backwards in a file (C149)
-/
open Fl
namespace GP.Spec
variable {PD D : Type}

/-- No off-curve point stands alone between points on the curve. -/
def NoneAlone (gc : GlifContour) : Prop :=
  ∀ o l, Rotated gc (o :: l) → o.ptype = .offcurve → (∃ q m, l = q :: m ∧ q.ptype = .offcurve) ∨ ∃ q m, l = m ++ [q] ∧ q.ptype = .offcurve

/-- The same for elements of a document. -/
def NoneAloneElements (es : List Element) : Prop :=
  ∀ o l, Rotated es (o :: l) → IsOff o → (∃ q m, l = q :: m ∧ IsOff q) ∨ ∃ q m, l = m ++ [q] ∧ IsOff q

/-- Something in an outline that is no contour, or a contour and the same with its points listed backwards, from an on-curve point on. -/
def ListedBackwards (x y : Node) : Prop :=
  (x = y ∧ ∀ a cs, x ≠ .elem "contour" a cs) ∨
  ∃ a b cs ds, x = .elem "contour" a cs ∧ y = .elem "contour" b ds ∧ Rotated (named "point" cs).reverse (named "point" ds) ∧
    CubicElements (named "point" cs) ∧ NoneAloneElements (named "point" cs) ∧ StartsOnCurve (named "point" cs) ∧ StartsOnCurve (named "point" ds)

end GP.Spec
