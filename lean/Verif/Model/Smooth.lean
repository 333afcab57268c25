import Verif.Model.Contour
import Verif.Float.Sqrt
/-!
# The distance test of `is_point_smooth_within`

`kurbo` is not in `/repo`.  These definitions follow the published source of `kurbo` (`vec2.rs`, `point.rs`,
`line.rs`); that they do is an assumption (DESIGN.md).  Each arithmetic operation is the IEEE one.
-/
open Fl
namespace GP

/-- `Point - Point`, a `kurbo::Vec2`. -/
def Kurbo.sub (p q : F64 × F64) : F64 × F64 := (p.1.sub q.1, p.2.sub q.2)

/-- `kurbo::Vec2::dot`; `hypot2` is `dot` with itself. -/
def Kurbo.dot (v w : F64 × F64) : F64 := (v.1.mul w.1).add (v.2.mul w.2)

/-- `kurbo::Line::eval`: `p0.lerp(p1, t)`, that is `p0 + t * (p1 - p0)`. -/
def Kurbo.eval (p0 p1 : F64 × F64) (t : F64) : F64 × F64 :=
  let d := Kurbo.sub p1 p0
  (p0.1.add (t.mul d.1), p0.2.add (t.mul d.2))

/-- `kurbo::Line::nearest`, the field `distance_sq` of its result.  The accuracy passed in
(src/outline/contour.rs 191) is not used for lines. -/
def Kurbo.nearestSq (p0 p1 p : F64 × F64) : F64 :=
  let d := Kurbo.sub p1 p0
  let dotp := Kurbo.dot d (Kurbo.sub p p0)
  let dSquared := Kurbo.dot d d
  if Flt.fle dotp Flt.zero then
    let v := Kurbo.sub p p0
    Kurbo.dot v v
  else if Flt.fle dSquared dotp then
    let v := Kurbo.sub p p1
    Kurbo.dot v v
  else
    let v := Kurbo.sub p (Kurbo.eval p0 p1 (dotp.div dSquared))
    Kurbo.dot v v

/-- src/outline/contour.rs 190-196: the test itself -/
def nearLine : SmoothTest := fun p a b within => Flt.fle (Kurbo.nearestSq a b p).sqrt within

end GP
