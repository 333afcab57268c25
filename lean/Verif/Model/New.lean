import Verif.Model.Mfek
/-!
# Constructors (src/point.rs, src/component.rs, src/glif.rs, src/glif/mfek)

`GlifPoint::from_x_y_type` and `GlifComponent::new` are with the types they make (Verif.Model.Point,
Verif.Model.Glif), as are `Image::new` and `GlifImage::from_filename`.
-/
open Fl
namespace GP
variable {PD D : Type}

/-- src/point.rs 172-174, with the defaults of src/point.rs 264-270 -/
def Point.new : Point PD := { x := Flt.zero, y := Flt.zero, a := .colocated, b := .colocated, name := none, ptype := .offcurve, smooth := false, data := none }

/-- src/point.rs 177-180 -/
def Point.fromXYType (x y : F32) (t : PointType) : Point PD := { Point.new with x := x, y := y, ptype := t }

/-- src/point.rs 183-186 -/
def Point.fromXYABType (x y : F32) (a b : Handle) (t : PointType) : Point PD :=
  { Point.new with x := x, y := y, a := a, b := b, ptype := t }

/-- src/point.rs 189-192 -/
def Point.fromFields (x y : F32) (a b : Handle) (smooth : Bool) (t : PointType) (name : Option Str) (data : Option PD) : Point PD :=
  { x := x, y := y, a := a, b := b, smooth := smooth, ptype := t, name := name, data := data }

/-- src/point.rs 255-262, of a debug build -/
def checkPtype (t : PointType) : R Unit := if t = .offcurve then .panic else .ok ()

/-- src/point.rs 177-180, of a debug build -/
def Point.fromXYTypeDebug (x y : F32) (t : PointType) : R (Point PD) := do
  checkPtype t
  .ok (.fromXYType x y t)

/-- src/point.rs 183-186, of a debug build -/
def Point.fromXYABTypeDebug (x y : F32) (a b : Handle) (t : PointType) : R (Point PD) := do
  checkPtype t
  .ok (.fromXYABType x y a b t)

/-- src/point.rs 189-192, of a debug build -/
def Point.fromFieldsDebug (x y : F32) (a b : Handle) (smooth : Bool) (t : PointType) (name : Option Str) (data : Option PD) :
    R (Point PD) := do
  checkPtype t
  .ok (.fromFields x y a b smooth t name data)

/-- src/glif/mfek/point/quad.rs 26-28 -/
def QPoint.new : QPoint PD := { x := Flt.zero, y := Flt.zero, a := .colocated, name := none, ptype := .offcurve, smooth := false, data := none }

/-- src/glif/mfek/point/quad.rs 31-33: without the check that `Point` has. -/
def QPoint.fromXYType (x y : F32) (t : PointType) : QPoint PD := { QPoint.new with x := x, y := y, ptype := t }

/-- `HyperPoint::default()`, derived: src/glif/mfek/point/hyper.rs 9, with the default of lines 141-146.  It is the
value of the fields that are left out in this model of the type, too. -/
def HyperPoint.blank : HyperPoint PD := {}

/-- src/glif/mfek/point/hyper.rs 25-33 -/
def HyperPoint.new (x y : F32) (kind : HyperPointType) (smooth : Bool) : HyperPoint PD :=
  { HyperPoint.blank with x := x, y := y, kind := kind, smooth := smooth }

/-- `GlifComponent::default()`, derived: src/component.rs 26.  The default `IntegerOrFloat` is the integer 0. -/
def GlifComponent.blank : GlifComponent :=
  { base := [], filename := none, identifier := none
    m := { xScale := .int 0, xyScale := .int 0, yxScale := .int 0, yScale := .int 0, xOffset := .int 0, yOffset := .int 0 } }

/-- src/component.rs 51-54 -/
def GlifComponents.new : GlifComponents := { root := [], vec := [], uniques := [] }

/-- src/glif.rs 72-74 -/
def Glif.new : Glif PD D :=
  { outline := none, anchors := [], components := .new, guidelines := [], images := [], width := none, unicode := [],
    name := [], note := none, filename := none, lib := .none }

/-- `MFEKGlif::default()`, derived: src/glif/mfek/mod.rs 33 -/
def MGlif.blank : MGlif PD :=
  { layers := [], anchors := [], components := .new, flattened := none, componentRects := none, guidelines := [],
    width := none, unicode := [], name := [], note := none, filename := none }

end GP
