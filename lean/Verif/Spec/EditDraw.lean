import Verif.Spec.DocumentDraw
import Verif.Spec.Mfek
/-!
# What is drawn of a contour before and after an edit (C129)
-/
open Fl
namespace GP.Spec
variable {PD : Type}

/-- The lines and curves from each point of a list to the next. -/
def piecesBetween (l : List (Point PD)) : List Stroke := (openPairs l).map wantedStroke

/-- The line or curve from one point to another. -/
def pieceTo (p q : Point PD) : Stroke := wantedStroke (p, q)

/-- An open contour of lines and curves: a move point first, and nowhere else. -/
def OpenRun (c : Contour PD) : Prop := ∃ m l, c = m :: l ∧ m.ptype = .move ∧ ∀ x ∈ l, x.ptype = .line ∨ x.ptype = .curve

/-- A closed contour of lines and curves. -/
def ClosedRun (c : Contour PD) : Prop := c ≠ [] ∧ ∀ x ∈ c, x.ptype = .line ∨ x.ptype = .curve

/-- The Skia path of a contour is one closed contour with exactly the pieces given, or with all but the last of them, a
line that leads nowhere. -/
def DrawsAround (conic : ConicToQuads) (c : Contour PD) (l : List Stroke) : Prop :=
  DrawsJust conic c True l ∨ ∃ p q, sameOrNaN p q ∧ ∃ k, l = k ++ [.line p q] ∧ DrawsJust conic c True k

end GP.Spec
