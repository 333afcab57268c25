import Verif.Spec.PenOps
/-!
# What a path draws, and what a contour should draw
-/
open Fl
namespace GP.Spec
variable {PD : Type}

/-- A segment: from its start to its end, with its control points between. -/
inductive PathSeg where
  | line (a b : F64 × F64)
  | quad (a c b : F64 × F64)
  | cubic (a c d b : F64 × F64)
  deriving DecidableEq

/-- Numerically the same place (`==` on kurbo's points). -/
def samePlace (a b : F64 × F64) : Bool := a.1.feq b.1 && a.2.feq b.2

/-- The segments of path elements, the subpath having begun at `start` and the pen being at `cur`.  This is
how `kurbo::BezPath::segments` defines them: `ClosePath` is a line back to the start, unless the pen is
there. -/
def segsFrom (start cur : F64 × F64) : List PathEl → List PathSeg
  | [] => []
  | .moveTo p :: l => segsFrom p p l
  | .lineTo p :: l => .line cur p :: segsFrom start p l
  | .quadTo c p :: l => .quad cur c p :: segsFrom start p l
  | .curveTo c d p :: l => .cubic cur c d p :: segsFrom start p l
  | .closePath :: l => (if samePlace cur start then [] else [.line cur start]) ++ segsFrom start start l

/-- The segments of a path.  A path that does not begin with a `MoveTo` is malformed: it draws nothing that
is defined. -/
def drawnBy : List PathEl → Option (List PathSeg)
  | [] => some []
  | .moveTo p :: l => some (segsFrom p p l)
  | _ => none

/-- Where a handle is. -/
def handlePos (h : Handle) (p : Point PD) : F64 × F64 :=
  match h with
  | .at x y => (x.to64, y.to64)
  | .colocated => pos64 p

/-- Is the segment straight: neither of the handles along it is off its point? -/
def StraightSeg (x : Point PD × Point PD) : Prop :=
  settle x.1.a x.1 = .colocated ∧ settle x.2.b x.2 = .colocated

instance (x : Point PD × Point PD) : Decidable (StraightSeg x) := inferInstanceAs (Decidable (_ ∧ _))

/-- The segment between two consecutive points: straight, or the cubic curve of the handles along it. -/
def wantedSeg (x : Point PD × Point PD) : PathSeg :=
  if StraightSeg x then .line (pos64 x.1) (pos64 x.2)
  else .cubic (pos64 x.1) (handlePos (settle x.1.a x.1) x.1) (handlePos (settle x.2.b x.2) x.2) (pos64 x.2)

/-- The path draws the segments of the closed contour, and no others. -/
def DrawsClosed (c : Contour PD) (els : List PathEl) : Prop := drawnBy els = some ((closedPairs c).map wantedSeg)

/-- The path draws the segments of the open contour, and no others. -/
def DrawsOpen (c : Contour PD) (els : List PathEl) : Prop := drawnBy els = some ((openPairs c).map wantedSeg)

instance (c : Contour PD) (els : List PathEl) : Decidable (DrawsClosed c els) := inferInstanceAs (Decidable (_ = _))
instance (c : Contour PD) (els : List PathEl) : Decidable (DrawsOpen c els) := inferInstanceAs (Decidable (_ = _))

end GP.Spec
