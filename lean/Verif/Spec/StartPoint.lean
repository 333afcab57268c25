import Verif.Spec.SaveParts
import Verif.Spec.ContourIO
/-!
# Specification of the point a contour of a file begins with (C148)
-/
open Fl
namespace GP.Spec
variable {PD D : Type}

/-- The first point is on the curve. -/
def StartsOn (gc : GlifContour) : Prop := ∃ g l, gc = g :: l ∧ g.ptype ≠ .offcurve

/-- The last point is on the curve. -/
def StopsOn (gc : GlifContour) : Prop := ∃ g l, gc = l ++ [g] ∧ g.ptype ≠ .offcurve

/-- The points of a closed contour of lines and cubic curves, nowhere with three off-curve points in a row. -/
structure CubicRing (gc : GlifContour) : Prop where
  types : ∀ p ∈ gc, p.ptype = .line ∨ p.ptype = .curve ∨ p.ptype = .offcurve
  two : ∀ p q r l, Rotated gc (p :: q :: r :: l) → ¬ (p.ptype = .offcurve ∧ q.ptype = .offcurve ∧ r.ptype = .offcurve)

/-- The points of a contour of quadratic curves. -/
def QuadraticRing (gc : GlifContour) : Prop := ∀ p ∈ gc, p.ptype = .qcurve ∨ p.ptype = .offcurve

/-- The points of `CubicRing`, as elements of a document. -/
structure CubicElements (es : List Element) : Prop where
  types : ∀ e ∈ es, OfType e "line" ∨ OfType e "curve" ∨ IsOff e
  two : ∀ p q r l, Rotated es (p :: q :: r :: l) → ¬ (IsOff p ∧ IsOff q ∧ IsOff r)

/-- The first element is a point on the curve. -/
def StartsOnCurve (es : List Element) : Prop := ∃ e l, es = e :: l ∧ ¬ IsOff e

/-- Something in an outline, or the same contour from another on-curve point on. -/
def Restarted (x y : Node) : Prop :=
  x = y ∨ ∃ a b cs ds, x = .elem "contour" a cs ∧ y = .elem "contour" b ds ∧ Rotated (named "point" cs) (named "point" ds) ∧
    CubicElements (named "point" cs) ∧ StartsOnCurve (named "point" cs) ∧ StartsOnCurve (named "point" ds)

end GP.Spec
