import Verif.Model.Point
/-! Concrete values used in the examples next to the theorems. -/
open Fl
namespace GP.Sample

/-- The `f32` of an integer. -/
def f (i : Int) : F32 := Flt.ofInt b32 i

/-- A point without handles. -/
def pt (t : PointType) (x y : Int) : Point Unit := { x := f x, y := f y, ptype := t }

/-- A curve point with both handles. -/
def cv (x y ax ay bx by' : Int) : Point Unit :=
  { x := f x, y := f y, a := .at (f ax) (f ay), b := .at (f bx) (f by'), ptype := .curve }

/-- A file point. -/
def gp (t : PointType) (x y : Int) : GlifPoint :=
  { x := .float (f x), y := .float (f y), ptype := t }

end GP.Sample
