import Verif.Spec.ContourIO
/-!
# Segments of a contour, and the same segments run backwards
-/
open Fl
namespace GP.Spec
variable {PD : Type}

/-- A segment's control polygon: start, first control, second control, end. -/
abbrev Poly := (F32 × F32) × (F32 × F32) × (F32 × F32) × (F32 × F32)

/-- Run backwards. -/
def Poly.back (s : Poly) : Poly := (s.2.2.2, s.2.2.1, s.2.1, s.1)

/-- Consecutive points. -/
def openPairs (c : Contour PD) : List (Point PD × Point PD) := c.zip c.tail

/-- Consecutive points, and last to first. -/
def closedPairs (c : Contour PD) : List (Point PD × Point PD) := c.zip (c.tail ++ c.take 1)

/-- The closed contour `c'` has the segments of `c` run backwards, in the opposite order, up to the one they begin
with. -/
def DrawsBackwards (c c' : Contour PD) : Prop :=
  ∃ s t, ((closedPairs c).map segment).reverse.map Poly.back = s ++ t ∧ (closedPairs c').map segment = t ++ s

/-- What a segment ending in `p` draws by the type of `p`: a curve, or a straight line. -/
inductive Drawn where
  | curve (s : Poly)
  | line (a b : F32 × F32)
  deriving DecidableEq

def Drawn.back : Drawn → Drawn
  | .curve s => .curve s.back
  | .line a b => .line b a

/-- A segment, drawn by type. -/
def drawn (x : Point PD × Point PD) : Drawn :=
  if x.2.ptype = .curve then .curve (segment x) else .line (x.1.x, x.1.y) (x.2.x, x.2.y)

/-- A segment needs a curve exactly if one of the two handles inside it exists. -/
def typeByHandles (out inn : Handle) : PointType :=
  if out = .colocated ∧ inn = .colocated then .line else .curve

/-- A point with its two handles exchanged. -/
def swapped (p : Point PD) : Point PD :=
  { x := p.x, y := p.y, a := p.b, b := p.a, name := p.name, ptype := p.ptype, smooth := p.smooth, data := p.data }

end GP.Spec
