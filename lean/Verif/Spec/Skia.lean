import Verif.Model.Skia
import Verif.Spec.Reverse
import Mathlib.Algebra.Ring.Defs
/-!
# Curves by their equations, and contours drawn from control polygons
-/
open Fl
namespace GP.Spec
variable {PD : Type}

/-- A quadratic Bézier curve at `t`, in one coordinate. -/
def bezier2 {K : Type} [CommRing K] (a b c t : K) : K := (1 - t) ^ 2 * a + 2 * (1 - t) * t * b + t ^ 2 * c

/-- A cubic Bézier curve at `t`, in one coordinate. -/
def bezier3 {K : Type} [CommRing K] (a b c d t : K) : K :=
  (1 - t) ^ 3 * a + 3 * (1 - t) ^ 2 * t * b + 3 * (1 - t) * t ^ 2 * c + t ^ 3 * d

/-- The control polygon of a segment by the type of its end; that of a line has its inner points at the
ends. -/
def polygon (x : Point PD × Point PD) : Poly :=
  if x.2.ptype = .curve then segment x else ((x.1.x, x.1.y), (x.1.x, x.1.y), (x.2.x, x.2.y), (x.2.x, x.2.y))

/-- The same point as far as drawing is concerned; handles on their point may be explicit. -/
structure SamePlace (p q : Point PD) : Prop where
  x : q.x = p.x
  y : q.y = p.y
  ptype : q.ptype = p.ptype
  a : outPos q = outPos p
  b : inPos q = inPos p

/-- A contour of lines and curves that ends where the contour's last line may be left out: the first
point is a curve, or a numerically different point than the last. -/
structure ClosedMixed (p q : Point PD) (rest : Contour PD) : Prop where
  lc : ∀ x ∈ p :: q :: rest, x.ptype = .line ∨ x.ptype = .curve
  apart : p.ptype = .line → ∀ z ∈ (q :: rest).getLast?, (p.x.isNaN || p.y.isNaN || z.x.isNaN || z.y.isNaN) = false ∧
    (z.x.feq p.x && z.y.feq p.y) = false

/-- A control polygon up to the signs of zeros. -/
def Poly.unsigned (s : Poly) : Poly :=
  let f := fun z : F32 × F32 => (z.1.normZero, z.2.normZero)
  (f s.1, f s.2.1, f s.2.2.1, f s.2.2.2)

/-- An open contour of at least two points: a move, then lines and curves.  The first point is a number
(NaNs differ from themselves). -/
structure OpenMixed (p q : Point PD) (rest : Contour PD) : Prop where
  move : p.ptype = .move
  lc : ∀ x ∈ q :: rest, x.ptype = .line ∨ x.ptype = .curve
  num : p.x.isNaN = false ∧ p.y.isNaN = false

/-- A segment of a path, from wherever the pen is. -/
inductive SkSeg where
  | line (p : SkPoint)
  | quad (c p : SkPoint)
  | conic (c p : SkPoint) (w : F32)
  | cubic (a b p : SkPoint)
  deriving DecidableEq

/-- A contour of a path.  A `skia_safe::Path` is a sequence of these: it begins a contour by itself if a
segment is added without a `move_to`, and ignores a second `close`. -/
structure SkContour where
  start : SkPoint
  segs : List SkSeg
  closed : Bool
  deriving DecidableEq

def SkSeg.el : SkSeg → SkEl
  | .line p => .line p
  | .quad c p => .quad c p
  | .conic c p w => .conic c p w
  | .cubic a b p => .cubic a b p

/-- Where a segment ends. -/
def SkSeg.stop : SkSeg → SkPoint
  | .line p => p
  | .quad _ p => p
  | .conic _ p _ => p
  | .cubic _ _ p => p

def SkSeg.isConic : SkSeg → Bool
  | .conic .. => true
  | _ => false

/-- The calls that draw it. -/
def SkContour.els (c : SkContour) : List SkEl :=
  .move c.start :: c.segs.map SkSeg.el ++ if c.closed then [.close] else []

/-- The same point: equal numbers, or a NaN among them, which Skia takes for the same point. -/
def sameOrNaN (p q : SkPoint) : Prop :=
  p.1.isNaN = true ∨ p.2.isNaN = true ∨ q.1.isNaN = true ∨ q.2.isNaN = true ∨ (p.1.feq q.1 = true ∧ p.2.feq q.2 = true)

instance (p q : SkPoint) : Decidable (sameOrNaN p q) := by unfold sameOrNaN; infer_instance

/-- A loop: a closed contour of one cubic or quadratic curve that ends where it began. -/
def SkContour.isLoop (c : SkContour) : Prop :=
  c.closed = true ∧ ((∃ a b p, c.segs = [.cubic a b p] ∧ sameOrNaN p c.start) ∨ ∃ b p, c.segs = [.quad b p] ∧ sameOrNaN p c.start)

/-- The points at which the segments of a contour begin, with the line that closes it. -/
def SkContour.starts (c : SkContour) : List SkPoint :=
  let pts := c.start :: c.segs.map SkSeg.stop
  if c.closed ∧ sameOrNaN (pts.getLastD c.start) c.start then pts.dropLast else pts

/-- Two quadratics in place of a conic begin and end where it does. -/
def KeepsEnds (conic : ConicToQuads) : Prop := ∀ s c p w, (conic s c p w).1 = s ∧ (conic s c p w).2.2.2.2 = p

/-- Segments from `s` on, with the two quadratic curves that approximate it in the place of each conic. -/
def asQuads (conic : ConicToQuads) : SkPoint → List SkSeg → List SkSeg
  | _, [] => []
  | s, .conic c p w :: l =>
    let q := conic s c p w
    .quad q.2.1 q.2.2.1 :: .quad q.2.2.2.1 p :: asQuads conic p l
  | _, g :: l => g :: asQuads conic g.stop l

/-- The contour without conics. -/
def SkContour.asQuads (conic : ConicToQuads) (c : SkContour) : SkContour := { c with segs := Spec.asQuads conic c.start c.segs }

/-- The contour begins with a move point. -/
def openContour (c : Contour PD) : Bool := c.head?.any fun p => p.ptype = .move

/-- A point moved by functions of its coordinates, with its explicit handles. -/
def movedXY (fx fy : F32 → F32) (p : Point PD) : Point PD :=
  let h := fun h : Handle => match h with
    | .at x y => Handle.at (fx x) (fy y)
    | .colocated => .colocated
  { p with x := fx p.x, y := fy p.y, a := h p.a, b := h p.b }

end GP.Spec
