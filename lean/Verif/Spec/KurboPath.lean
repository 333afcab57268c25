import Mathlib.Data.List.Forall2
import Verif.Spec.KurboDraw
import Verif.Spec.SkiaDraw
/-!
# Subpaths of kurbo paths, and when a contour draws them
-/
open Fl
namespace GP.Spec
variable {PD : Type}

/-- A line or a cubic curve of a kurbo path, from wherever the pen is. -/
inductive KSeg where
  | line (p : F64 × F64)
  | cubic (c d p : F64 × F64)

def KSeg.el : KSeg → PathEl
  | .line p => .lineTo p
  | .cubic c d p => .curveTo c d p

def KSeg.stop : KSeg → F64 × F64
  | .line p => p
  | .cubic _ _ p => p

/-- A subpath: where it starts, its lines and curves, and whether `ClosePath` ends it. -/
structure KSub where
  start : F64 × F64
  segs : List KSeg
  closed : Bool

def KSub.els (c : KSub) : List PathEl := .moveTo c.start :: (c.segs.map KSeg.el ++ if c.closed then [.closePath] else [])

/-- Where the lines and curves of a subpath end. -/
def KSub.stop (c : KSub) : F64 × F64 := (c.segs.map KSeg.stop).getLastD c.start

/-- A place rounded to single precision, which is what an outline can hold. -/
def inSingle (p : F64 × F64) : F64 × F64 := (p.1.to32.to64, p.2.to32.to64)

def elInSingle : PathEl → PathEl
  | .moveTo p => .moveTo (inSingle p)
  | .lineTo p => .lineTo (inSingle p)
  | .quadTo c p => .quadTo (inSingle c) (inSingle p)
  | .curveTo c d p => .curveTo (inSingle c) (inSingle d) (inSingle p)
  | .closePath => .closePath

/-- The place of a point of an outline, up to the signs of zeros. -/
def placeSingle (p : F64 × F64) : F32 × F32 := (p.1.to32.normZero, p.2.to32.normZero)

/-- A segment of an outline with this control polygon draws the line or curve.  For a curve it is the same control
polygon.  For a line the inner control points are at its ends (`C117_line`: then the segment runs exactly along the
line). -/
def DrawsSeg (s : Poly) : PathSeg → Prop
  | .line a b => s.unsigned.1 = placeSingle a ∧ (s.unsigned.2.1 = placeSingle a ∨ s.unsigned.2.1 = placeSingle b) ∧
      (s.unsigned.2.2.1 = placeSingle a ∨ s.unsigned.2.2.1 = placeSingle b) ∧ s.unsigned.2.2.2 = placeSingle b
  | .cubic a c d b => s.unsigned = (placeSingle a, placeSingle c, placeSingle d, placeSingle b)
  | .quad .. => False

/-- A contour of an outline draws what a subpath draws (its places rounded to single precision): it is open or
closed like it, and each of its segments draws the line or curve of the same number. -/
def DrawsSub (c : KSub) (d : Contour PD) : Prop :=
  openContour d = !c.closed ∧ ∃ segs, drawnBy (c.els.map elInSingle) = some segs ∧
    List.Forall₂ (fun x g => DrawsSeg (polygon x) g) (if c.closed then closedPairs d else openPairs d) segs

/-- The subpaths that an outline does not draw: open ones that begin with a curve with its control point elsewhere
than its start; open ones that end where they start; and closed ones without lines and curves, which become a point
with handles. -/
def LostSub (c : KSub) : Prop :=
  if c.closed then c.segs = [] ∧ samePlace (inSingle c.start) (inSingle c.start) = true
  else c.segs ≠ [] ∧ (samePlace (inSingle c.stop) (inSingle c.start) = true ∨
    ∃ a d p, c.segs.head? = some (.cubic a d p) ∧ placeSingle a ≠ placeSingle c.start)

/-- A closed contour has become one that draws its lines and curves. -/
def SameLinesAndCurves (c d : Contour PD) : Prop :=
  openContour d = false ∧ List.Forall₂ (fun x g => DrawsSeg (polygon x) g) (closedPairs d) ((closedPairs c).map wantedSeg)

/-- A closed contour of two points or more that has only curves, or only lines and no second point where it starts. -/
def CurvesOrLines (c : Contour PD) : Prop :=
  ∃ p q rest, c = p :: q :: rest ∧ p.ptype ≠ .move ∧
    (p.x.isNaN = false ∧ p.y.isNaN = false ∧ (∀ y ∈ closedPairs c, ¬ StraightSeg y) ∨
      (∀ y ∈ q :: rest, samePlace (pos64 y) (pos64 p) = false) ∧ ∀ y ∈ closedPairs c, StraightSeg y)

/-- A closed contour, of `p`, `q` and the `rest`, whose lines and curves kurbo keeps.  Either it has only curves, but for
the one that closes it, which may be straight if a handle is stored for it.  Or it has only lines, but for the one that
closes it, which is straight or has all its control points where the contour starts. -/
def KeptByKurbo (p q : Point PD) (rest : Contour PD) : Prop :=
  let z := rest.getLastD q
  (∀ y ∈ openPairs (p :: q :: rest), ¬ StraightSeg y) ∧ ¬ (z.a = .colocated ∧ settle p.b p = .colocated) ∨
    (∀ y ∈ openPairs (p :: q :: rest), StraightSeg y) ∧
      DrawsSeg ((z.x, z.y), (p.x, p.y), (p.x, p.y), (p.x, p.y)) (wantedSeg (z, p))

/-- Closed contours of two points or more, all in different places, that start in a place that is a number. -/
def PlainClosed (c : Contour PD) : Prop :=
  ∃ p q rest, c = p :: q :: rest ∧ p.ptype ≠ .move ∧ p.x.isNaN = false ∧ p.y.isNaN = false ∧
    (c.map fun x => (x.x.normZero, x.y.normZero)).Nodup

end GP.Spec
