import Verif.Model.Error
import Verif.Model.Iof
/-!
# Points (src/point.rs, src/point/valid.rs, src/point/conv.rs)
-/
open Fl
namespace GP

/-- src/point.rs 20-26 -/
structure GlifPoint where
  x : IOF := default
  y : IOF := default
  smooth : Bool := false
  name : Option Str := none
  ptype : PointType := default
  deriving DecidableEq, Repr

/-- src/point.rs 30-33.  The coordinates in every call are `f32`s. -/
def GlifPoint.fromXYType (x y : F32) (ptype : PointType) : GlifPoint :=
  { x := IOF.ofF32 x, y := IOF.ofF32 y, ptype := ptype }

/-- src/point.rs 68-71 -/
inductive Handle where
  | at (x y : F32)
  | colocated
  deriving DecidableEq, Repr

/-- src/point.rs 264-266 -/
instance : Inhabited Handle := ⟨.colocated⟩

/-- src/point.rs 73-80 -/
def Handle.ofGlifPoint : Option GlifPoint → Handle
  | some p => .at p.x.toF32 p.y.toF32
  | none => .colocated

/-- `matches!(h, Handle::At(..))` -/
def Handle.isAt : Handle → Bool
  | .at .. => true
  | .colocated => false

/-- src/point.rs 143-157 -/
structure Point (PD : Type) where
  x : F32 := default
  y : F32 := default
  a : Handle := .colocated
  b : Handle := .colocated
  name : Option Str := none
  ptype : PointType := default
  smooth : Bool := false
  data : Option PD := none
  deriving DecidableEq, Repr

/-- src/point.rs 164-169 -/
inductive WhichHandle where
  | neither | A | B
  deriving DecidableEq, Repr

/-- src/outline.rs 25 -/
abbrev Contour (PD : Type) := List (Point PD)
/-- src/outline.rs 26 -/
abbrev Outline (PD : Type) := List (Contour PD)
/-- src/outline.rs 28 -/
abbrev GlifContour := List GlifPoint

variable {PD : Type}

namespace Point

/-- src/point.rs 194-203 -/
def handle (p : Point PD) : WhichHandle → Handle
  | .A => p.a
  | .B => p.b
  | .neither => .colocated

/-- src/point.rs 207-218, with both transformations the identity as in src/point/conv.rs 15.
(src/outline/skia/to.rs has others: they are applied to the result, see `skSegment`.) -/
def handleOrColocated (p : Point PD) (wh : WhichHandle) : F32 × F32 :=
  match p.handle wh with
  | .at x y => (x, y)
  | .colocated => (p.x, p.y)

/-- src/point.rs 246-252 -/
def setHandle (p : Point PD) (wh : WhichHandle) (h : Handle) : Point PD :=
  match wh with
  | .A => { p with a := h }
  | .B => { p with b := h }
  | .neither => p

end Point

/-- src/point/conv.rs 14-17 -/
def GlifPoint.fromHandle (p : Point PD) (wh : WhichHandle) : GlifPoint :=
  let xy := p.handleOrColocated wh
  GlifPoint.fromXYType xy.1 xy.2 .offcurve

/-- src/point/conv.rs 21-31 -/
def GlifPoint.ofPoint (p : Point PD) : GlifPoint :=
  { x := IOF.ofF32 p.x, y := IOF.ofF32 p.y, ptype := p.ptype, name := p.name, smooth := p.smooth }

/-- src/point/conv.rs 34-44 -/
def Point.ofGlifPoint (gp : GlifPoint) : Point PD :=
  { x := gp.x.toF32, y := gp.y.toF32, ptype := gp.ptype, name := gp.name, smooth := gp.smooth }

/-- src/point.rs 311-318 -/
def PointType.ofHandle : Handle → PointType
  | .at .. => .curve
  | .colocated => .line

/-- src/point.rs 361-367 -/
def PointType.isValid : PointType → Bool
  | .move | .line | .qcurve | .curve | .offcurve => true
  | _ => false

/-- src/point.rs 371-376 -/
def PointType.isValidOncurve (t : PointType) : Bool :=
  if t = .offcurve then false else t.isValid

/-- src/point.rs 380-390 -/
def PointType.text : PointType → Str
  | .undefined => "undefined".toList
  | .offcurve => "offcurve".toList
  | .qclose => "qclose".toList
  | .move => "move".toList
  | .curve => "curve".toList
  | .qcurve => "qcurve".toList
  | .line => "line".toList

/-- src/point.rs 277-287, 320-324 (never fails) -/
def PointType.parse (s : Str) : PointType :=
  if s = "move".toList then .move
  else if s = "line".toList then .line
  else if s = "qcurve".toList then .qcurve
  else if s = "curve".toList then .curve
  else .offcurve

namespace WhichHandle

/-- src/point.rs 333-342 -/
def opposite : WhichHandle → WhichHandle
  | A => B
  | B => A
  | neither => neither

/-- src/point.rs 345-348 -/
def isValid (w : WhichHandle) : Bool := w == A || w == B

/-- src/point.rs 351-358 -/
def toChar : WhichHandle → Char
  | A => 'A'
  | B => 'B'
  | neither => Char.ofNat 0

/-- src/point.rs 298-308.  (In debug builds any other char than NUL panics.) -/
def ofChar (c : Char) : WhichHandle :=
  if c = 'A' ∨ c = 'a' ∨ c = 'Ａ' ∨ c = 'ａ' then A
  else if c = 'B' ∨ c = 'b' ∨ c = 'Ｂ' ∨ c = 'ｂ' then B
  else neither

end WhichHandle

/-- src/point/valid.rs 43-53: the test applied to one handle. -/
def Handle.validCoords : Handle → Bool
  | .at hx hy => !(hx.isNaN || hy.isSubnormal)
  | .colocated => true

/-- src/point/valid.rs 35-56.  `validData` is the `is_valid` of the user's point data
(always true in this version: src/point.rs 139 gives every type of point data the default of
src/point/valid.rs 6; the parameter keeps the model more general). -/
def Point.isValid (validData : PD → Bool) (p : Point PD) : Bool :=
  (match p.data with
    | some d => validData d
    | none => true)
  && (p.ptype != .undefined)
  && !(p.x.isNaN || p.y.isSubnormal)
  && p.a.validCoords && p.b.validCoords

/-- src/point/valid.rs 75-96 -/
def GlifPoint.isValid (p : GlifPoint) : Bool :=
  (p.ptype != .undefined)
  && !((p.x.floatPart.map fun x => x.isSubnormal || x.isNaN).getD false)
  && !((p.y.floatPart.map fun y => y.isSubnormal || y.isNaN).getD false)

end GP
