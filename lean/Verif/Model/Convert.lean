import Verif.Model.Layer
import Verif.Model.PenOps
/-!
# Conversions and accessors: handles as points, colours, guidelines as property lists, kinds of contours

(src/point.rs 220-242, src/point/conv.rs, src/color.rs, src/guideline.rs, src/glif/mfek/contour.rs,
src/glif/mfek/inner/*.rs)
-/
open Fl
namespace GP
variable {PD : Type}

/-! ## Points -/

/-- src/point.rs 220-230 -/
def Point.handleAsGpoint (p : Point PD) (wh : WhichHandle) : GlifPoint :=
  let xy := match p.handle wh with
    | .at x y => (x, y)
    | .colocated => (p.x, p.y)
  .fromXYType xy.1 xy.2 .offcurve

/-- src/point.rs 232-234 -/
def Point.handleAsPoint (p : Point PD) (wh : WhichHandle) : Point PD := .ofGlifPoint (p.handleAsGpoint wh)

/-- src/point.rs 236-242 -/
def Point.handleAsKpoint (p : Point PD) (wh : WhichHandle) : F64 × F64 :=
  let g := p.handleAsGpoint wh
  (g.x.toF64, g.y.toF64)

/-- src/point/conv.rs 7-11 -/
def Handle.ofPoint (p : Point PD) : Handle := .at p.x p.y

/-! ## Colours -/

/-- src/color.rs 58-62 -/
def Color.toArray (c : Color) : F32 × F32 × F32 × F32 := (c.r.toF32, c.g.toF32, c.b.toF32, c.a.toF32)

/-- src/color.rs 64-68, 18-20 -/
def Color.ofArray (c : F32 × F32 × F32 × F32) : Color :=
  { r := .ofF32 c.1, g := .ofF32 c.2.1, b := .ofF32 c.2.2.1, a := .ofF32 c.2.2.2 }

/-- src/color.rs 22-24.  The other values are `plist::Value::Real`s. -/
def Color.asPlist (c : Color) : PValue F64 := .array [.other c.r.toF64, .other c.g.toF64, .other c.b.toF64, .other c.a.toF64]

/-! ## Guidelines -/

/-- src/guideline.rs 40-52.  A `plist::Dictionary` keeps its keys in order. -/
def Guideline.asPlistDict (g : Guideline) : List (Str × PValue F64) :=
  [("x".toList, .other g.x.to64), ("y".toList, .other g.y.to64), ("angle".toList, .other g.angle.toF64)] ++
    (match g.name with
      | some n => [("name".toList, .str n)]
      | none => []) ++
    (match g.color with
      | some c => [("color".toList, c.asPlist)]
      | none => [])

/-- src/guideline.rs 56-66 -/
def Guideline.fromXYAngle (x y : F32) (angle : IOF) : Guideline :=
  { x := x, y := y, angle := angle, name := none, color := none, identifier := none }

/-- src/guideline.rs 68-71 -/
def Guideline.withName (g : Guideline) (n : Str) : Guideline := { g with name := some n }

/-- src/guideline.rs 73-76 -/
def Guideline.withColor (g : Guideline) (c : Color) : Guideline := { g with color := some c }

/-- src/guideline.rs 78-81 -/
def Guideline.withIdentifier (g : Guideline) (i : Str) : Guideline := { g with identifier := some i }

/-! ## Contours of the editor -/

/-- src/glif/mfek/inner/mod.rs 171-176 -/
inductive MInnerType where
  | cubic | quad | hyper
  deriving DecidableEq, Repr

namespace MInner

/-- src/glif/mfek/inner/cubic.rs 12-14, quad.rs 25-27, hyper.rs 42-44 -/
def getType : MInner PD → MInnerType
  | .cubic _ => .cubic
  | .quad _ => .quad
  | .hyper _ => .hyper

/-- src/glif/mfek/inner/cubic.rs 60-66, quad.rs 81-87, hyper.rs 98-104 -/
def asCubic : MInner PD → Option (List (Point PD))
  | .cubic c => some c
  | .quad _ => none
  | .hyper _ => none

/-- src/glif/mfek/inner/cubic.rs 76-82, quad.rs 73-79, hyper.rs 106-112 -/
def asQuad : MInner PD → Option (List (QPoint PD))
  | .cubic _ => none
  | .quad c => some c
  | .hyper _ => none

/-- src/glif/mfek/inner/cubic.rs 68-74, quad.rs 89-95, hyper.rs 82-88 -/
def asHyper : MInner PD → Option (HyperInner PD)
  | .cubic _ => none
  | .quad _ => none
  | .hyper c => some c

/-- src/glif/mfek/inner/cubic.rs 32-34, quad.rs 45-47, hyper.rs 62-64 -/
def isEmpty : MInner PD → Bool
  | .cubic c => c.isEmpty
  | .quad c => c.isEmpty
  | .hyper c => c.points.isEmpty

/-- src/glif/mfek/inner/cubic.rs 44-50, quad.rs 57-63, hyper.rs 74-80: what a contour is after one of its
points was changed through `get_point_mut` by `f`.  A point cannot become one of another kind. -/
def modifyPoint (f : MPoint PD → MPoint PD) : MInner PD → Nat → MInner PD
  | .cubic c, i => .cubic (c.modify i fun p => match f (.cubic p) with
    | .cubic q => q
    | _ => p)
  | .quad c, i => .quad (c.modify i fun p => match f (.quad p) with
    | .quad q => q
    | _ => p)
  | .hyper c, i => .hyper { c with points := c.points.modify i fun p => match f (.hyper p) with
    | .hyper q => q
    | _ => p }

end MInner

end GP
