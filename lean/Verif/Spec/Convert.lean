import Verif.Model.Convert
/-!
# What conversions should keep
-/
open Fl
namespace GP.Spec
variable {PD : Type}

/-- A number of type `f64` that is an `f32`. -/
def isF32 (x : F64) : Prop := ∃ y : F32, y.to64 = x

/-- The kurbo point has `f32` coordinates. -/
def f32Point (p : F64 × F64) : Prop := isF32 p.1 ∧ isF32 p.2

/-- All points of an element have `f32` coordinates. -/
def f32s : PathEl → Prop
  | .moveTo p => f32Point p
  | .lineTo p => f32Point p
  | .quadTo c p => f32Point c ∧ f32Point p
  | .curveTo c1 c2 p => f32Point c1 ∧ f32Point c2 ∧ f32Point p
  | .closePath => True

/-- The points of an element. -/
def elPoints : PathEl → List (F64 × F64)
  | .moveTo p => [p]
  | .lineTo p => [p]
  | .quadTo c p => [c, p]
  | .curveTo c1 c2 p => [c1, c2, p]
  | .closePath => []

/-- The element with its first and last point swapped. -/
def swappedEl : PathEl → PathEl
  | .quadTo c p => .quadTo p c
  | .curveTo c1 c2 p => .curveTo p c2 c1
  | e => e

/-- The value of a key in a dictionary. -/
def dictGet {V : Type} (d : List (Str × PValue V)) (k : String) : Option (PValue V) := (d.find? fun e => e.1 = k.toList).map Prod.snd

/-- The kind of a point. -/
def pointType : MPoint PD → MInnerType
  | .cubic _ => .cubic
  | .quad _ => .quad
  | .hyper _ => .hyper

end GP.Spec
