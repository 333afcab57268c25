import Verif.Model.New
import Verif.Spec.ContourIO
import Verif.Spec.Skia
/-!
# Glyphs made in a program
-/
open Fl
namespace GP.Spec
variable {PD D : Type}

/-- The ways to make a point. -/
inductive PointCall (PD : Type) where
  | new
  | place (x y : F32) (t : PointType)
  | handles (x y : F32) (a b : Handle) (t : PointType)
  | fields (x y : F32) (a b : Handle) (smooth : Bool) (t : PointType) (name : Option Str) (data : Option PD)

/-- The point that is made. -/
def PointCall.run : PointCall PD → Point PD
  | .new => .new
  | .place x y t => .fromXYType x y t
  | .handles x y a b t => .fromXYABType x y a b t
  | .fields x y a b s t n d => .fromFields x y a b s t n d

/-- The type that is asked for, if any. -/
def PointCall.asked : PointCall PD → Option PointType
  | .new => none
  | .place _ _ t => some t
  | .handles _ _ _ _ t => some t
  | .fields _ _ _ _ _ t _ _ => some t

/-- The place that is asked for. -/
def PointCall.site : PointCall PD → F32 × F32
  | .new => (Flt.zero, Flt.zero)
  | .place x y _ => (x, y)
  | .handles x y _ _ _ => (x, y)
  | .fields x y _ _ _ _ _ _ => (x, y)

/-- Where a handle is asked to be: at its point if it is not asked for. -/
def handlePlace (z : F32 × F32) : Option Handle → F32 × F32
  | some (.at x y) => (x, y)
  | _ => z

/-- Where the curve is asked to leave the point to, -/
def PointCall.leaves (k : PointCall PD) : F32 × F32 :=
  handlePlace k.site (match k with
    | .handles _ _ a _ _ => some a
    | .fields _ _ a _ _ _ _ _ => some a
    | _ => none)

/-- and where from to arrive. -/
def PointCall.arrives (k : PointCall PD) : F32 × F32 :=
  handlePlace k.site (match k with
    | .handles _ _ _ b _ => some b
    | .fields _ _ _ b _ _ _ _ => some b
    | _ => none)

/-- The name and the smoothness that are asked for. -/
def PointCall.marks : PointCall PD → Option Str × Bool
  | .fields _ _ _ _ s _ n _ => (n, s)
  | _ => (none, false)

/-- The control polygons of the curves that are asked for, round the contour. -/
def callCurves (c : List (PointCall PD)) : List ((F32 × F32) × (F32 × F32) × (F32 × F32) × (F32 × F32)) :=
  ((cyclicPairs c).filter fun x => x.2.asked == some .curve).map fun x => (x.1.site, x.1.leaves, x.2.arrives, x.2.site)

/-- A program's glyph: a new glyph that is given a name, contours of points made one by one, and new components that
are given bases. -/
def program (n : Str) (cs : List (List (PointCall PD))) (bs : List Str) : Glif PD D :=
  { (Glif.new : Glif PD D) with
    name := n
    outline := some (cs.map fun c => c.map PointCall.run)
    components := { GlifComponents.new with vec := bs.map fun b => { GlifComponent.new with base := b } } }

/-- The calls for a polygon through some places: an open one starts with a `move`. -/
def polygonCalls (isOpen : Bool) : List (F32 × F32) → List (PointCall PD)
  | [] => []
  | z :: r => .place z.1 z.2 (if isOpen then .move else .line) :: r.map fun z => .place z.1 z.2 .line

/-- A place without negative zeros. -/
def unsignedPlace (z : F32 × F32) : F32 × F32 := (z.1.normZero, z.2.normZero)

/-- A contour holds what the calls ask for, perhaps from another point on: points with these places, types, names and smoothness, and curves
with these control polygons. -/
def HoldsCalls (c : List (PointCall PD)) (d : Contour PD) : Prop :=
  Rotated (c.map fun k => (unsignedPlace k.site, k.asked, k.marks)) (d.map fun p => ((p.x, p.y), some p.ptype, p.name, p.smooth)) ∧
    Rotated ((callCurves c).map Poly.unsigned) (curveSegments d)

/-- At the origin, whatever the signs of the zeros. -/
def AtOrigin (x y : F32) : Prop := x.normZero = Flt.zero ∧ y.normZero = Flt.zero

end GP.Spec
