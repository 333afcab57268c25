import Verif.Spec.Component
import Verif.Spec.FlattenDraw
/-!
# What lies in a rectangle (C128)
-/
open Fl
namespace GP.Spec
variable {PD : Type}

/-- Both coordinates are numbers other than the infinities. -/
def FinitePos (p : SkPoint) : Prop := p.1.isFinite = true ∧ p.2.isFinite = true

/-- The rectangle contains the place. -/
def PlaceIn (r : Rect) (p : ℚ × ℚ) : Prop :=
  r.minx.toRat ≤ p.1 ∧ p.1 ≤ r.maxx.toRat ∧ r.miny.toRat ≤ p.2 ∧ p.2 ≤ r.maxy.toRat

/-- Everything that a contour of a path draws is in the rectangle. -/
def DrawnWithin (conic : ConicToQuads) (r : Rect) (k : SkContour) : Prop :=
  ∀ s ∈ k.strokes conic, ∀ t, 0 ≤ t → t ≤ 1 → PlaceIn r (s.atParam t)

/-- A contour of lines and curves, that begins with a move point if it is open. -/
def LinesAndCurves (c : Contour PD) : Prop :=
  ∃ p l, c = p :: l ∧ (p.ptype = .move ∨ p.ptype = .line ∨ p.ptype = .curve) ∧ ∀ x ∈ l, x.ptype = .line ∨ x.ptype = .curve

end GP.Spec
