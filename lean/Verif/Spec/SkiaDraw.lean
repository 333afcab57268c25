import Verif.Spec.Skia
/-!
# What a Skia path draws
-/
open Fl
namespace GP.Spec
variable {PD : Type}

/-- A piece of what a pen draws, with its control points from the first to the last. -/
inductive Stroke where
  | line (a b : SkPoint)
  | quad (a b c : SkPoint)
  | cubic (a b c d : SkPoint)
  deriving DecidableEq

/-- The control polygon of a piece as a cubic curve.  That of a line has its inner points at the ends, and
that of a quadratic curve is the one whose accuracy is the subject of C38 and C93. -/
def Stroke.poly : Stroke → Poly
  | .line a b => (a, a, b, b)
  | .quad a b c => quadToCubic twoThirds a b c
  | .cubic a b c d => (a, b, c, d)

def Stroke.curved : Stroke → Bool
  | .line .. => false
  | _ => true

/-- What a segment draws that begins at `s`; a conic is drawn as the two quadratics that `conic` says. -/
def SkSeg.strokes (conic : ConicToQuads) (s : SkPoint) : SkSeg → List Stroke
  | .line p => [.line s p]
  | .quad c p => [.quad s c p]
  | .conic c p w =>
    let q := conic s c p w
    [.quad q.1 q.2.1 q.2.2.1, .quad q.2.2.1 q.2.2.2.1 q.2.2.2.2]
  | .cubic a b p => [.cubic s a b p]

/-- What segments draw that begin at `s`, each where the one before it ended. -/
def strokesFrom (conic : ConicToQuads) : SkPoint → List SkSeg → List Stroke
  | _, [] => []
  | s, g :: l => g.strokes conic s ++ strokesFrom conic g.stop l

/-- Where the segments of a contour end. -/
def SkContour.stop (c : SkContour) : SkPoint := (c.segs.map SkSeg.stop).getLastD c.start

/-- What a contour draws.  If it is closed, then a line to where it began is part of it unless its segments
end there. -/
def SkContour.strokes (conic : ConicToQuads) (c : SkContour) : List Stroke :=
  strokesFrom conic c.start c.segs ++ if c.closed ∧ ¬ sameOrNaN c.stop c.start then [.line c.stop c.start] else []

/-- The inner points of a control polygon are at its ends. -/
def Poly.straight (s : Poly) : Prop := s.2.1 = s.1 ∧ s.2.2.1 = s.2.2.2

/-- A contour of an outline draws what a contour of a path does, up to the signs of zeros: its segments have the
same control polygons in the same order, and it is open or closed like it. -/
def DrawsPath (conic : ConicToQuads) (c : SkContour) (d : Contour PD) : Prop :=
  openContour d = !c.closed ∧
  ((if c.closed then closedPairs d else openPairs d).map fun x => (polygon x).unsigned) = (c.strokes conic).map fun s => s.poly.unsigned

/-- A closed contour of a path begins with a line, and is closed by a curve that is not straight. -/
def LineThenCurve (conic : ConicToQuads) (c : SkContour) : Prop :=
  c.closed = true ∧ ∃ g ∈ (c.strokes conic).head?, ∃ h ∈ (c.strokes conic).getLast?, g.curved = false ∧ h.curved = true ∧ ¬ h.poly.unsigned.straight

/-- The piece that a segment of a contour should draw, by the type of the point it ends in. -/
def wantedStroke (x : Point PD × Point PD) : Stroke :=
  if x.2.ptype = .curve then .cubic (x.1.x, x.1.y) (outPos x.1) (inPos x.2) (x.2.x, x.2.y) else .line (x.1.x, x.1.y) (x.2.x, x.2.y)

/-- The pieces that the segments of a contour of lines and curves should draw. -/
def wantedStrokes (c : Contour PD) : List Stroke := (if openContour c then openPairs c else closedPairs c).map wantedStroke

/-- Where a point of a file is. -/
def placeInFile (p : GlifPoint) : SkPoint := (p.x.toF32, p.y.toF32)

/-- Half-way between two off-curve points of a file. -/
def impliedPlace (mid : IOF → IOF → IOF) (h g : GlifPoint) : SkPoint := ((mid h.x g.x).toF32, (mid h.y g.y).toF32)

/-- The pieces of a closed contour of quadratic curves that begins at `first`, from the points of the file that
are left, with the pen at `pen` and perhaps an off-curve point seen already: between two off-curve points there is
a point half-way on the curve, and a curve without off-curve points is straight. -/
def quadStrokes (mid : IOF → IOF → IOF) (first : SkPoint) : SkPoint → Option GlifPoint → List GlifPoint → List Stroke
  | pen, none, [] => [.quad pen pen first]
  | pen, some h, [] => [.quad pen (placeInFile h) first]
  | pen, none, g :: l => if g.ptype = .offcurve then quadStrokes mid first pen (some g) l else .quad pen pen (placeInFile g) :: quadStrokes mid first (placeInFile g) none l
  | pen, some h, g :: l =>
    if g.ptype = .offcurve then .quad pen (placeInFile h) (impliedPlace mid h g) :: quadStrokes mid first (impliedPlace mid h g) (some g) l
    else .quad pen (placeInFile h) (placeInFile g) :: quadStrokes mid first (placeInFile g) none l

end GP.Spec
