import Verif.Model.Mfek
import Verif.Model.Component
/-!
# Serialisation (feature `glifserde`)

What `#[derive(Serialize, Deserialize)]` with the attributes in `/repo` makes of each type, in terms of the data model
of `serde`.  The crate `serde` is not in the sandbox; what is assumed of its derives:
* `serialize` of a structure gives its fields by name, in the order of the source, without those marked `skip_serializing`;
  of a variant, its name and what it holds; of a tuple or a vector or a set, a sequence; a structure with one unnamed
  field is what this field is; serialising a variant marked `skip_serializing` is an error;
* `deserialize` of a structure takes named fields (`visit_map`) in any order, ignores names that it does not know,
  fails if a known name comes twice or a field is missing that is neither marked `default` nor an `Option`; or it takes a
  sequence (`visit_seq`) in the order of the source, at the end of which only fields marked `default` may be missing.
  Fields marked `skip_deserializing` are unknown to it and get their default value.
A sequence that is longer than the structure is an error of the format in the formats that know its length; so it is here.
-/
open Fl
namespace GP.Serde
variable {PD D α β : Type}

/-- Values of the data model. -/
inductive Val where
  | unit
  | bool (b : Bool)
  | int (i : Int)
  | f32 (x : F32)
  | f64 (x : F64)
  | char (c : Char)
  | str (s : Str)
  | none
  | some (v : Val)
  | seq (vs : List Val)
  | struct (fs : List (String × Val))
  | variant (name : String) (v : Val)

mutual
/-- The same value in a format that writes the fields of structures without their names. -/
def Val.positional : Val → Val
  | .some v => .some v.positional
  | .seq vs => .seq (positionals vs)
  | .struct fs => .seq (positionalFields fs)
  | .variant n v => .variant n v.positional
  | v => v

def positionals : List Val → List Val
  | [] => []
  | v :: vs => v.positional :: positionals vs

def positionalFields : List (String × Val) → List Val
  | [] => []
  | (_, v) :: fs => v.positional :: positionalFields fs
end

mutual
/-- How deeply values are nested. -/
def Val.depth : Val → Nat
  | .some v => v.depth + 1
  | .seq vs => depths vs + 1
  | .struct fs => depthFields fs + 1
  | .variant _ v => v.depth + 1
  | _ => 1

def depths : List Val → Nat
  | [] => 0
  | v :: vs => max v.depth (depths vs)

def depthFields : List (String × Val) → Nat
  | [] => 0
  | (_, v) :: fs => max v.depth (depthFields fs)
end

/-- What a type does to be serialised, and to be deserialised; `none` for an error. -/
structure Serde (α : Type) where
  ser : α → Val
  de : Val → Option α

/-! ## Structures -/

/-- The fields that were found, in the order of the source, and whether they had names. -/
structure Row where
  named : Bool
  vals : List (Option Val)

/-- The generated visitors' `visit_map` and `visit_seq` -/
def Val.row (names : List String) : Val → Option Row
  | .struct fs =>
    if names.all fun n => (fs.filter fun f => f.1 == n).length ≤ 1 then
      Option.some ⟨true, names.map fun n => (fs.find? fun f => f.1 == n).map (·.2)⟩
    else Option.none
  | .seq vs =>
    if vs.length ≤ names.length then Option.some ⟨false, vs.map Option.some ++ List.replicate (names.length - vs.length) Option.none⟩ else Option.none
  | _ => Option.none

/-- A field that has to be there. -/
def Row.need (r : Row) (i : Nat) (de : Val → Option α) : Option α :=
  match r.vals[i]? with
  | some (some v) => de v
  | _ => none

/-- A field marked `default`. -/
def Row.orElse (r : Row) (i : Nat) (d : α) (de : Val → Option α) : Option α :=
  match r.vals[i]? with
  | some (some v) => de v
  | _ => some d

/-- A field of a type `Option<..>` that is not marked `default`. -/
def Row.opt (r : Row) (i : Nat) (de : Val → Option (Option α)) : Option (Option α) :=
  match r.vals[i]? with
  | some (some v) => de v
  | _ => if r.named then some none else none

/-! ## Types of the standard library -/

def bool : Serde Bool where
  ser := .bool
  de | .bool b => some b | _ => none

def f32 : Serde F32 where
  ser := .f32
  de | .f32 x => some x | _ => none

def f64 : Serde F64 where
  ser := .f64
  de | .f64 x => some x | _ => none

def char : Serde Char where
  ser := .char
  de | .char c => some c | _ => none

def str : Serde Str where
  ser := .str
  de | .str s => some s | _ => none

/-- `usize`, without bound as everywhere -/
def usize : Serde Nat where
  ser n := .int n
  de | .int i => if 0 ≤ i then some i.toNat else none | _ => none

def u64 : Serde Nat where
  ser n := .int n
  de | .int i => if 0 ≤ i ∧ i < 2 ^ 64 then some i.toNat else none | _ => none

def u8 : Serde UInt8 where
  ser n := .int n.toNat
  de | .int i => if 0 ≤ i ∧ i < 2 ^ 8 then some (UInt8.ofNat i.toNat) else none | _ => none

def option (s : Serde α) : Serde (Option α) where
  ser | some a => .some (s.ser a) | none => .none
  de | .some v => (s.de v).map some | .none => some none | _ => none

/-- A vector of which the members are deserialised so. -/
def deSeq (de : Val → Option α) : Val → Option (List α)
  | .seq vs => vs.mapM de
  | _ => none

def list (s : Serde α) : Serde (List α) where
  ser l := .seq (l.map s.ser)
  de := deSeq s.de

/-- `HashSet`: the members of the sequence, once each. -/
def set [DecidableEq α] (s : Serde α) : Serde (List α) where
  ser l := .seq (l.map s.ser)
  de | .seq vs => (vs.mapM s.de).map fun l => l.foldl (fun a x => if x ∈ a then a else a ++ [x]) [] | _ => none

def pair (s : Serde α) (t : Serde β) : Serde (α × β) where
  ser p := .seq [s.ser p.1, t.ser p.2]
  de | .seq [v, w] => do some (← s.de v, ← t.de w) | _ => none

/-- Enumerations of which no variant holds anything. -/
def enum (names : List (String × α)) (name : α → String) : Serde α where
  ser a := .variant (name a) .unit
  de | .variant n .unit => (names.find? fun x => x.1 == n).map (·.2) | _ => none

/-! ## What other crates do

`IntegerOrFloat` (crate `integer_or_float`), `PathBuf`, `plist::Dictionary`, and the data of points that the user of
the library has chosen, with its default. -/
structure Foreign (PD D : Type) where
  iof : Serde IOF
  path : Serde Path
  dict : Serde D
  pd : Serde PD
  pdDefault : PD

/-! ## src/string.rs -/

/-- src/string.rs 14-20, src/string/serde_impl.rs: `GlifString` and `GlifStringLenOne`.  Neither of the checks of
`TryFrom` is done. -/
def glifString : Serde Str := str

/-! ## Points -/

/-- src/point.rs 47-63 -/
def pointType : Serde PointType :=
  enum [("Undefined", .undefined), ("Move", .move), ("Curve", .curve), ("QCurve", .qcurve), ("QClose", .qclose),
    ("Line", .line), ("OffCurve", .offcurve)] fun
    | .undefined => "Undefined" | .move => "Move" | .curve => "Curve" | .qcurve => "QCurve" | .qclose => "QClose"
    | .line => "Line" | .offcurve => "OffCurve"

/-- src/point.rs 161-169 -/
def whichHandle : Serde WhichHandle :=
  enum [("Neither", .neither), ("A", .A), ("B", .B)] fun | .neither => "Neither" | .A => "A" | .B => "B"

/-- src/point.rs 66-71 -/
def handle : Serde Handle where
  ser | .at x y => .variant "At" (.seq [.f32 x, .f32 y]) | .colocated => .variant "Colocated" .unit
  de
    | .variant n v =>
      if n = "At" then (match v with | .seq [.f32 x, .f32 y] => some (.at x y) | _ => none)
      else if n = "Colocated" then (match v with | .unit => some .colocated | _ => none)
      else none
    | _ => none

/-- src/point.rs 18-25 -/
def glifPoint (iof : Serde IOF) : Serde GlifPoint where
  ser p := .struct [("x", iof.ser p.x), ("y", iof.ser p.y), ("smooth", bool.ser p.smooth), ("name", (option str).ser p.name),
    ("ptype", pointType.ser p.ptype)]
  de v := do
    let r ← v.row ["x", "y", "smooth", "name", "ptype"]
    let x ← r.need 0 iof.de
    let y ← r.need 1 iof.de
    let smooth ← r.need 2 bool.de
    let name ← r.opt 3 (option str).de
    let ptype ← r.need 4 pointType.de
    some { x, y, smooth, name, ptype }

/-- src/point.rs 141-157 -/
def point (pd : Serde PD) : Serde (Point PD) where
  ser p := .struct [("x", f32.ser p.x), ("y", f32.ser p.y), ("a", handle.ser p.a), ("b", handle.ser p.b),
    ("name", (option str).ser p.name), ("ptype", pointType.ser p.ptype), ("smooth", bool.ser p.smooth),
    ("data", (option pd).ser p.data)]
  de v := do
    let r ← v.row ["x", "y", "a", "b", "name", "ptype", "smooth", "data"]
    let x ← r.need 0 f32.de
    let y ← r.need 1 f32.de
    let a ← r.orElse 2 .colocated handle.de
    let b ← r.orElse 3 .colocated handle.de
    let name ← r.orElse 4 none (option str).de
    let ptype ← r.need 5 pointType.de
    let smooth ← r.orElse 6 false bool.de
    let data ← r.orElse 7 none (option pd).de
    some { x, y, a, b, name, ptype, smooth, data }

/-- src/glif/mfek/point/quad.rs 9-23 -/
def qpoint (pd : Serde PD) : Serde (QPoint PD) where
  ser p := .struct [("x", f32.ser p.x), ("y", f32.ser p.y), ("a", handle.ser p.a), ("name", (option str).ser p.name),
    ("ptype", pointType.ser p.ptype), ("smooth", bool.ser p.smooth), ("data", (option pd).ser p.data)]
  de v := do
    let r ← v.row ["x", "y", "a", "name", "ptype", "smooth", "data"]
    let x ← r.need 0 f32.de
    let y ← r.need 1 f32.de
    let a ← r.orElse 2 .colocated handle.de
    let name ← r.orElse 3 none (option str).de
    let ptype ← r.need 4 pointType.de
    let smooth ← r.orElse 5 false bool.de
    let data ← r.orElse 6 none (option pd).de
    some { x, y, a, name, ptype, smooth, data }

/-- src/glif/mfek/point/hyper.rs 141-146 -/
def hyperPointType : Serde HyperPointType :=
  enum [("Curve", .curve), ("Line", .line)] fun | .curve => "Curve" | .line => "Line"

/-- src/glif/mfek/point/hyper.rs 9-22: no field is marked. -/
def hyperPoint (pd : Serde PD) : Serde (HyperPoint PD) where
  ser p := .struct [("x", f32.ser p.x), ("y", f32.ser p.y), ("a", handle.ser p.a), ("b", handle.ser p.b),
    ("kind", hyperPointType.ser p.kind), ("smooth", bool.ser p.smooth), ("data", (option pd).ser p.data)]
  de v := do
    let r ← v.row ["x", "y", "a", "b", "kind", "smooth", "data"]
    let x ← r.need 0 f32.de
    let y ← r.need 1 f32.de
    let a ← r.need 2 handle.de
    let b ← r.need 3 handle.de
    let kind ← r.need 4 hyperPointType.de
    let smooth ← r.need 5 bool.de
    let data ← r.opt 6 (option pd).de
    some { x, y, a, b, kind, smooth, data }

/-! ## Colours, anchors, guidelines, components, images -/

/-- src/color.rs 8-15 -/
def color (iof : Serde IOF) : Serde Color where
  ser c := .struct [("r", iof.ser c.r), ("g", iof.ser c.g), ("b", iof.ser c.b), ("a", iof.ser c.a)]
  de v := do
    let w ← v.row ["r", "g", "b", "a"]
    let r ← w.need 0 iof.de
    let g ← w.need 1 iof.de
    let b ← w.need 2 iof.de
    let a ← w.need 3 iof.de
    some { r, g, b, a }

/-- src/anchor.rs 16-23 -/
def anchorType : Serde AnchorType := enum [("Mark", .mark), ("Base", .base)] fun | .mark => "Mark" | .base => "Base"

/-- src/anchor.rs 45-56.  `data` is the default in all code modelled, and is not kept in `Anchor`: whatever is
deserialised for it is dropped. -/
def anchor (F : Foreign PD D) : Serde Anchor where
  ser a := .struct [("x", f32.ser a.x), ("y", f32.ser a.y), ("class", (option str).ser a.cls),
    ("data", F.pd.ser F.pdDefault), ("atype", anchorType.ser a.atype)]
  de v := do
    let r ← v.row ["x", "y", "class", "data", "atype"]
    let x ← r.need 0 f32.de
    let y ← r.need 1 f32.de
    let cls ← r.orElse 2 none (option str).de
    let _ ← r.orElse 3 F.pdDefault F.pd.de
    let atype ← r.orElse 4 .base anchorType.de
    some { x, y, cls, atype }

/-- src/anchor.rs 72-78 -/
def glifAnchor (iof : Serde IOF) : Serde GlifAnchor where
  ser a := .struct [("x", iof.ser a.x), ("y", iof.ser a.y), ("class", (option glifString).ser a.cls)]
  de v := do
    let r ← v.row ["x", "y", "class"]
    let x ← r.need 0 iof.de
    let y ← r.need 1 iof.de
    let cls ← r.opt 2 (option glifString).de
    some { x, y, cls }

/-- src/guideline.rs 15-20 -/
def guidelinePoint : Serde (F32 × F32) where
  ser p := .struct [("x", f32.ser p.1), ("y", f32.ser p.2)]
  de v := do
    let r ← v.row ["x", "y"]
    let x ← r.need 0 f32.de
    let y ← r.need 1 f32.de
    some (x, y)

/-- src/guideline.rs 28-37.  For `data` see `anchor`. -/
def guideline (F : Foreign PD D) : Serde Guideline where
  ser g := .struct [("at", guidelinePoint.ser (g.x, g.y)), ("angle", F.iof.ser g.angle), ("name", (option str).ser g.name),
    ("color", (option (color F.iof)).ser g.color), ("identifier", (option str).ser g.identifier), ("data", F.pd.ser F.pdDefault)]
  de v := do
    let r ← v.row ["at", "angle", "name", "color", "identifier", "data"]
    let p ← r.need 0 guidelinePoint.de
    let angle ← r.need 1 F.iof.de
    let name ← r.opt 2 (option str).de
    let color ← r.opt 3 (option (color F.iof)).de
    let identifier ← r.opt 4 (option str).de
    let _ ← r.need 5 F.pd.de
    some { x := p.1, y := p.2, angle, name, color, identifier }

/-- src/component.rs 25-37 -/
def glifComponent (F : Foreign PD D) : Serde GlifComponent where
  ser c := .struct [("base", str.ser c.base), ("filename", (option F.path).ser c.filename), ("xScale", F.iof.ser c.m.xScale),
    ("xyScale", F.iof.ser c.m.xyScale), ("yxScale", F.iof.ser c.m.yxScale), ("yScale", F.iof.ser c.m.yScale),
    ("xOffset", F.iof.ser c.m.xOffset), ("yOffset", F.iof.ser c.m.yOffset), ("identifier", (option str).ser c.identifier)]
  de v := do
    let r ← v.row ["base", "filename", "xScale", "xyScale", "yxScale", "yScale", "xOffset", "yOffset", "identifier"]
    let base ← r.need 0 str.de
    let filename ← r.opt 1 (option F.path).de
    let xScale ← r.need 2 F.iof.de
    let xyScale ← r.need 3 F.iof.de
    let yxScale ← r.need 4 F.iof.de
    let yScale ← r.need 5 F.iof.de
    let xOffset ← r.need 6 F.iof.de
    let yOffset ← r.need 7 F.iof.de
    let identifier ← r.opt 8 (option str).de
    some { base, filename, m := { xScale, xyScale, yxScale, yScale, xOffset, yOffset }, identifier }

/-- src/component.rs 39-49 -/
def glifComponents (F : Foreign PD D) : Serde GlifComponents where
  ser c := .struct [("root", str.ser c.root), ("vec", (list (glifComponent F)).ser c.vec), ("uniques", (set str).ser c.uniques)]
  de v := do
    let r ← v.row ["root", "vec", "uniques"]
    let root ← r.need 0 str.de
    let vec ← r.need 1 (list (glifComponent F)).de
    let uniques ← r.need 2 (set str).de
    some { root, vec, uniques }

/-- src/image.rs 86-97.  The path is its text, as everywhere. -/
def glifImage (iof : Serde IOF) : Serde GlifImage where
  ser c := .struct [("filename", str.ser c.filename), ("xScale", iof.ser c.m.xScale),
    ("xyScale", iof.ser c.m.xyScale), ("yxScale", iof.ser c.m.yxScale), ("yScale", iof.ser c.m.yScale),
    ("xOffset", iof.ser c.m.xOffset), ("yOffset", iof.ser c.m.yOffset), ("identifier", (option str).ser c.identifier),
    ("color", (option (color iof)).ser c.color)]
  de v := do
    let r ← v.row ["filename", "xScale", "xyScale", "yxScale", "yScale", "xOffset", "yOffset", "identifier", "color"]
    let filename ← r.need 0 str.de
    let xScale ← r.need 1 iof.de
    let xyScale ← r.need 2 iof.de
    let yxScale ← r.need 3 iof.de
    let yScale ← r.need 4 iof.de
    let xOffset ← r.need 5 iof.de
    let yOffset ← r.need 6 iof.de
    let identifier ← r.opt 7 (option str).de
    let color ← r.opt 8 (option (color iof)).de
    some { filename, m := { xScale, xyScale, yxScale, yScale, xOffset, yOffset }, identifier, color }

/-- src/component.rs 93-101 -/
def componentRect : Serde ComponentRect where
  ser c := .struct [("minx", f32.ser c.rect.minx), ("miny", f32.ser c.rect.miny), ("maxx", f32.ser c.rect.maxx),
    ("maxy", f32.ser c.rect.maxy), ("name", str.ser c.name)]
  de v := do
    let r ← v.row ["minx", "miny", "maxx", "maxy", "name"]
    let minx ← r.need 0 f32.de
    let miny ← r.need 1 f32.de
    let maxx ← r.need 2 f32.de
    let maxy ← r.need 3 f32.de
    let name ← r.need 4 str.de
    some { rect := { minx, miny, maxx, maxy }, name }

/-! ## Glyphs -/

/-- src/glif/lib.rs 6-17; `none` is the error for the variant that is not serialised. -/
def serLib (dict : Serde D) : Lib D → Option Val
  | .none => some (.variant "None" .unit)
  | .plist d => some (.variant "Plist" (dict.ser d))
  | .xml _ => none

/-- src/glif/lib.rs 6-17 -/
def deLib (dict : Serde D) : Val → Option (Lib D)
  | .variant n v =>
    if n = "None" then (match v with | .unit => some .none | _ => none)
    else if n = "Plist" then (dict.de v).map .plist
    else none
  | _ => none

/-- src/glif.rs 40-68 -/
def serGlif (F : Foreign PD D) (g : Glif PD D) : Option Val := do
  let lib ← serLib F.dict g.lib
  some (.struct [("outline", (option (list (list (point F.pd)))).ser g.outline), ("anchors", (list (anchor F)).ser g.anchors),
    ("components", (glifComponents F).ser g.components), ("guidelines", (list (guideline F)).ser g.guidelines),
    ("images", (list (glifImage F.iof)).ser g.images), ("width", (option u64).ser g.width), ("unicode", (list char).ser g.unicode),
    ("name", str.ser g.name), ("note", (option str).ser g.note), ("lib", lib)])

/-- src/glif.rs 40-68 -/
def deGlif (F : Foreign PD D) (v : Val) : Option (Glif PD D) := do
  let r ← v.row ["outline", "anchors", "components", "guidelines", "images", "width", "unicode", "name", "note", "lib"]
  let outline ← r.opt 0 (option (list (list (point F.pd)))).de
  let anchors ← r.need 1 (list (anchor F)).de
  let components ← r.need 2 (glifComponents F).de
  let guidelines ← r.need 3 (list (guideline F)).de
  let images ← r.need 4 (list (glifImage F.iof)).de
  let width ← r.opt 5 (option u64).de
  let unicode ← r.need 6 (list char).de
  let name ← r.need 7 str.de
  let note ← r.opt 8 (option str).de
  let lib ← r.need 9 (deLib F.dict)
  some { outline, anchors, components, guidelines, images, width, unicode, name, note, filename := none, lib }

/-- `kurbo::Affine`, a structure around `[f64; 6]`; its `serde` feature is on (Cargo.toml 39). -/
def affine : Serde Affine where
  ser m := .seq [f64.ser m.a, f64.ser m.b, f64.ser m.c, f64.ser m.d, f64.ser m.e, f64.ser m.f]
  de | .seq [.f64 a, .f64 b, .f64 c, .f64 d, .f64 e, .f64 f] => some ⟨a, b, c, d, e, f⟩ | _ => none

/-- src/component.rs 80-85 -/
def serComponent (F : Foreign PD D) (c : Component PD D) : Option Val := do
  let glif ← serGlif F c.glif
  some (.struct [("glif", glif), ("matrix", affine.ser c.matrix)])

/-- src/component.rs 80-85 -/
def deComponent (F : Foreign PD D) (v : Val) : Option (Component PD D) := do
  let r ← v.row ["glif", "matrix"]
  let glif ← r.need 0 (deGlif F)
  let matrix ← r.need 1 affine.de
  some { glif, matrix }

/-! ## Editor contours -/

/-- src/glif/mfek/contour_operations/vws.rs 157-161 -/
def interpolation : Serde InterpolationType :=
  enum [("Null", .null), ("Linear", .linear)] fun | .null => "Null" | .linear => "Linear"

/-- src/glif/mfek/contour_operations/vws.rs 87-93 -/
def join : Serde JoinType :=
  enum [("Bevel", .bevel), ("Miter", .miter), ("Circle", .circle), ("Round", .round)] fun
    | .bevel => "Bevel" | .miter => "Miter" | .circle => "Circle" | .round => "Round"

/-- src/glif/mfek/contour_operations/vws.rs 119-125 -/
def cap : Serde CapType :=
  enum [("Custom", .custom), ("Square", .square), ("Circle", .circle), ("Round", .round)] fun
    | .custom => "Custom" | .square => "Square" | .circle => "Circle" | .round => "Round"

/-- src/glif/mfek/contour_operations/vws.rs 79-85 -/
def vwsHandle : Serde VwsHandle where
  ser h := .struct [("left_offset", f64.ser h.left), ("right_offset", f64.ser h.right), ("tangent_offset", f64.ser h.tangent),
    ("interpolation", interpolation.ser h.interpolation)]
  de v := do
    let r ← v.row ["left_offset", "right_offset", "tangent_offset", "interpolation"]
    let left ← r.need 0 f64.de
    let right ← r.need 1 f64.de
    let tangent ← r.need 2 f64.de
    let interpolation ← r.need 3 interpolation.de
    some { left, right, tangent, interpolation }

/-- src/glif/mfek/contour_operations/vws.rs 8-16 -/
def vws : Serde VwsContour where
  ser d := .struct [("handles", (list vwsHandle).ser d.handles), ("join_type", join.ser d.join),
    ("cap_start_type", cap.ser d.capStart), ("cap_end_type", cap.ser d.capEnd), ("remove_internal", bool.ser d.removeInternal),
    ("remove_external", bool.ser d.removeExternal)]
  de v := do
    let r ← v.row ["handles", "join_type", "cap_start_type", "cap_end_type", "remove_internal", "remove_external"]
    let handles ← r.need 0 (list vwsHandle).de
    let join ← r.need 1 join.de
    let capStart ← r.need 2 cap.de
    let capEnd ← r.need 3 cap.de
    let removeInternal ← r.need 4 bool.de
    let removeExternal ← r.need 5 bool.de
    some { handles, join, capStart, capEnd, removeInternal, removeExternal }

/-- src/glif/mfek/contour_operations/dash.rs 5-9 -/
def dashCull : Serde (F32 × F32) where
  ser c := .struct [("width", f32.ser c.1), ("area_cutoff", f32.ser c.2)]
  de v := do
    let r ← v.row ["width", "area_cutoff"]
    let w ← r.need 0 f32.de
    let a ← r.need 1 f32.de
    some (w, a)

/-- src/glif/mfek/contour_operations/dash.rs 11-19 -/
def dash : Serde DashContour where
  ser d := .struct [("stroke_width", f32.ser d.strokeWidth), ("cull", (option dashCull).ser d.cull),
    ("dash_desc", (list f32).ser d.dashDesc), ("include_last_path", bool.ser d.includeLastPath),
    ("paint_join", u8.ser d.paintJoin), ("paint_cap", u8.ser d.paintCap)]
  de v := do
    let r ← v.row ["stroke_width", "cull", "dash_desc", "include_last_path", "paint_join", "paint_cap"]
    let strokeWidth ← r.need 0 f32.de
    let cull ← r.opt 1 (option dashCull).de
    let dashDesc ← r.need 2 (list f32).de
    let includeLastPath ← r.need 3 bool.de
    let paintJoin ← r.need 4 u8.de
    let paintCap ← r.need 5 u8.de
    some { strokeWidth, cull, dashDesc, includeLastPath, paintJoin, paintCap }

/-- src/glif/mfek/contour_operations/pap.rs 8-12 -/
def copies : Serde PatternCopies :=
  enum [("Single", .single), ("Repeated", .repeated)] fun | .single => "Single" | .repeated => "Repeated"

/-- src/glif/mfek/contour_operations/pap.rs 14-22 -/
def subdivide : Serde PatternSubdivide where
  ser | .off => .variant "Off" .unit | .simple n => .variant "Simple" (usize.ser n) | .angle a => .variant "Angle" (f64.ser a)
  de
    | .variant n v =>
      if n = "Off" then (match v with | .unit => some .off | _ => none)
      else if n = "Simple" then (usize.de v).map .simple
      else if n = "Angle" then (f64.de v).map .angle
      else none
    | _ => none

/-- src/glif/mfek/contour_operations/pap.rs 25-33 -/
def culling : Serde PatternCulling where
  ser
    | .off => .variant "Off" .unit
    | .removeOverlapping => .variant "RemoveOverlapping" .unit
    | .eraseOverlapping a b => .variant "EraseOverlapping" (.seq [.f64 a, .f64 b])
  de
    | .variant n v =>
      if n = "Off" then (match v with | .unit => some .off | _ => none)
      else if n = "RemoveOverlapping" then (match v with | .unit => some .removeOverlapping | _ => none)
      else if n = "EraseOverlapping" then (match v with | .seq [.f64 a, .f64 b] => some (.eraseOverlapping a b) | _ => none)
      else none
    | _ => none

/-- src/glif/mfek/contour_operations/pap.rs 44-52 -/
def stretch : Serde PatternStretch :=
  enum [("Off", .off), ("On", .on), ("Spacing", .spacing)] fun | .off => "Off" | .on => "On" | .spacing => "Spacing"

/-- src/glif/mfek/contour_operations/pap.rs 54-73; `pattern` is the serialised pattern. -/
def serPap {C : Type} (d : PapContour C) (pattern : Val) : Val :=
  .struct [("pattern", pattern), ("copies", copies.ser d.copies), ("subdivide", subdivide.ser d.subdivide),
    ("is_vertical", bool.ser d.isVertical), ("stretch", stretch.ser d.stretch), ("spacing", f64.ser d.spacing),
    ("simplify", bool.ser d.simplify), ("normal_offset", f64.ser d.normalOffset), ("tangent_offset", f64.ser d.tangentOffset),
    ("pattern_scale", (pair f64 f64).ser d.patternScale), ("center_pattern", bool.ser d.centerPattern),
    ("prevent_overdraw", culling.ser d.preventOverdraw), ("two_pass_culling", bool.ser d.twoPassCulling),
    ("reverse_path", bool.ser d.reversePath), ("reverse_culling", bool.ser d.reverseCulling),
    ("warp_pattern", bool.ser d.warpPattern), ("split_path", bool.ser d.splitPath)]

/-- src/glif/mfek/contour_operations/pap.rs 54-73 -/
def dePap {C : Type} (de : Val → Option C) (v : Val) : Option (PapContour C) := do
  let r ← v.row ["pattern", "copies", "subdivide", "is_vertical", "stretch", "spacing", "simplify", "normal_offset",
    "tangent_offset", "pattern_scale", "center_pattern", "prevent_overdraw", "two_pass_culling", "reverse_path",
    "reverse_culling", "warp_pattern", "split_path"]
  let pattern ← r.need 0 (deSeq de)
  let copies ← r.need 1 copies.de
  let subdivide ← r.need 2 subdivide.de
  let isVertical ← r.need 3 bool.de
  let stretch ← r.need 4 stretch.de
  let spacing ← r.need 5 f64.de
  let simplify ← r.need 6 bool.de
  let normalOffset ← r.need 7 f64.de
  let tangentOffset ← r.need 8 f64.de
  let patternScale ← r.need 9 (pair f64 f64).de
  let centerPattern ← r.need 10 bool.de
  let preventOverdraw ← r.need 11 culling.de
  let twoPassCulling ← r.need 12 bool.de
  let reversePath ← r.need 13 bool.de
  let reverseCulling ← r.need 14 bool.de
  let warpPattern ← r.need 15 bool.de
  let splitPath ← r.need 16 bool.de
  some { pattern, copies, subdivide, isVertical, stretch, spacing, simplify, normalOffset, tangentOffset, patternScale,
         centerPattern, preventOverdraw, twoPassCulling, reversePath, reverseCulling, warpPattern, splitPath }

/-- src/glif/mfek/contour_operations/mod.rs 20-26: variants with one field, `data`. -/
def deOp {C : Type} (de : Val → Option C) : Val → Option (ContourOp C)
  | .variant n v => do
    let r ← v.row ["data"]
    if n = "VariableWidthStroke" then (r.need 0 vws.de).map .vws
    else if n = "PatternAlongPath" then (r.need 0 (dePap de)).map .pap
    else if n = "DashAlongPath" then (r.need 0 dash.de).map .dash
    else none
  | _ => none

/-- src/glif/mfek/inner/hyper.rs 6-10 -/
def hyperInner (pd : Serde PD) : Serde (HyperInner PD) where
  ser c := .struct [("points", (list (hyperPoint pd)).ser c.points), ("open", bool.ser c.isOpen)]
  de v := do
    let r ← v.row ["points", "open"]
    let points ← r.need 0 (list (hyperPoint pd)).de
    let isOpen ← r.need 1 bool.de
    some { points, isOpen }

/-- src/glif/mfek/inner/mod.rs 10-15 -/
def inner (pd : Serde PD) : Serde (MInner PD) where
  ser
    | .cubic c => .variant "Cubic" ((list (point pd)).ser c)
    | .quad c => .variant "Quad" ((list (qpoint pd)).ser c)
    | .hyper c => .variant "Hyper" ((hyperInner pd).ser c)
  de
    | .variant n v =>
      if n = "Cubic" then ((list (point pd)).de v).map .cubic
      else if n = "Quad" then ((list (qpoint pd)).de v).map .quad
      else if n = "Hyper" then ((hyperInner pd).de v).map .hyper
      else none
    | _ => none

mutual
/-- src/glif/mfek/contour.rs 18-22 -/
def serContour (pd : Serde PD) : MContour PD → Val
  | ⟨i, o⟩ => .struct [("inner", (inner pd).ser i), ("operation", serOptOp pd o)]

def serOptOp (pd : Serde PD) : Option (ContourOp (MContour PD)) → Val
  | none => .none
  | some o => .some (serOp pd o)

/-- src/glif/mfek/contour_operations/mod.rs 20-26 -/
def serOp (pd : Serde PD) : ContourOp (MContour PD) → Val
  | .vws d => .variant "VariableWidthStroke" (.struct [("data", vws.ser d)])
  | .pap d => .variant "PatternAlongPath" (.struct [("data", serPap d (.seq (serContours pd d.pattern)))])
  | .dash d => .variant "DashAlongPath" (.struct [("data", dash.ser d)])

def serContours (pd : Serde PD) : List (MContour PD) → List Val
  | [] => []
  | c :: cs => serContour pd c :: serContours pd cs
end

/-- src/glif/mfek/contour.rs 18-22.  Patterns have contours that may have patterns: the number bounds how often. -/
def deContour (pd : Serde PD) : Nat → Val → Option (MContour PD)
  | 0, _ => none
  | n + 1, v => do
    let r ← v.row ["inner", "operation"]
    let inner ← r.need 0 (inner pd).de
    let operation ← r.opt 1 fun
      | .some v => (deOp (deContour pd n) v).map some
      | .none => some none
      | _ => none
    some { inner, operation }

/-- src/glif/mfek/contour.rs 18-22; no value has more patterns in patterns than it is deep. -/
def contour (pd : Serde PD) : Serde (MContour PD) where
  ser := serContour pd
  de v := deContour pd v.depth v

/-! ## Editor glyphs -/

/-- src/glif/mfek/mod.rs 176-182 -/
def layerOperation : Serde LayerOperation :=
  enum [("Difference", .difference), ("Union", .union), ("XOR", .xor), ("Intersect", .intersect)] fun
    | .difference => "Difference" | .union => "Union" | .xor => "XOR" | .intersect => "Intersect"

/-- src/glif/mfek/layer.rs 15-23 -/
def layer (F : Foreign PD D) : Serde (Layer PD) where
  ser l := .struct [("name", str.ser l.name), ("visible", bool.ser l.visible), ("color", (option (color F.iof)).ser l.color),
    ("outline", (list (contour F.pd)).ser l.outline), ("operation", (option layerOperation).ser l.operation),
    ("images", (list (pair (glifImage F.iof) affine)).ser l.images)]
  de v := do
    let r ← v.row ["name", "visible", "color", "outline", "operation", "images"]
    let name ← r.need 0 str.de
    let visible ← r.need 1 bool.de
    let color ← r.opt 2 (option (color F.iof)).de
    let outline ← r.need 3 (list (contour F.pd)).de
    let operation ← r.opt 4 (option layerOperation).de
    let images ← r.need 5 (list (pair (glifImage F.iof) affine)).de
    some { name, visible, color, outline, operation, images }

/-- src/glif/mfek/mod.rs 124-133; `G` is the type of glyphs. -/
structure HistoryEntry (PD G : Type) where
  description : Str
  layerIdx : Option Nat
  contourIdx : Option Nat
  pointIdx : Option Nat
  guidelines : List Guideline
  selected : Option (List (Nat × Nat))
  glyph : G

/-- src/glif/mfek/mod.rs 34-53, with the history, which `MGlif` leaves out. -/
inductive EditedGlif (PD : Type) where
  | mk (glyph : MGlif PD) (history : List (HistoryEntry PD (EditedGlif PD)))

/-- src/glif/mfek/mod.rs 124-133; `glyph` is the serialised glyph. -/
def serEntry {G : Type} (F : Foreign PD D) (e : HistoryEntry PD G) (glyph : Val) : Val :=
  .struct [("description", str.ser e.description), ("layer_idx", (option usize).ser e.layerIdx),
    ("contour_idx", (option usize).ser e.contourIdx), ("point_idx", (option usize).ser e.pointIdx),
    ("guidelines", (list (guideline F)).ser e.guidelines), ("selected", (option (set (pair usize usize))).ser e.selected),
    ("glyph", glyph)]

/-- src/glif/mfek/mod.rs 124-133 -/
def deEntry {G : Type} (F : Foreign PD D) (de : Val → Option G) (v : Val) : Option (HistoryEntry PD G) := do
  let r ← v.row ["description", "layer_idx", "contour_idx", "point_idx", "guidelines", "selected", "glyph"]
  let description ← r.need 0 str.de
  let layerIdx ← r.opt 1 (option usize).de
  let contourIdx ← r.opt 2 (option usize).de
  let pointIdx ← r.opt 3 (option usize).de
  let guidelines ← r.need 4 (list (guideline F)).de
  let selected ← r.opt 5 (option (set (pair usize usize))).de
  let glyph ← r.need 6 de
  some { description, layerIdx, contourIdx, pointIdx, guidelines, selected, glyph }

mutual
/-- src/glif/mfek/mod.rs 33-53: `filename` is marked `skip_serializing`, -/
def serEdited (F : Foreign PD D) : EditedGlif PD → Val
  | .mk g h => .struct [("layers", (list (layer F)).ser g.layers), ("history", .seq (serEntries F h)),
      ("anchors", (list (anchor F)).ser g.anchors), ("components", (glifComponents F).ser g.components),
      ("flattened", (option (list (list (point F.pd)))).ser g.flattened),
      ("component_rects", (option (list componentRect)).ser g.componentRects), ("guidelines", (list (guideline F)).ser g.guidelines),
      ("width", (option u64).ser g.width), ("unicode", (list char).ser g.unicode), ("name", str.ser g.name),
      ("note", (option str).ser g.note)]

def serEntries (F : Foreign PD D) : List (HistoryEntry PD (EditedGlif PD)) → List Val
  | [] => []
  | e :: es => serEntryAux F e :: serEntries F es

def serEntryAux (F : Foreign PD D) : HistoryEntry PD (EditedGlif PD) → Val
  | e => serEntry F e (serEdited F e.glyph)
end

/-- src/glif/mfek/mod.rs 33-53: but not `skip_deserializing`.  Glyphs have histories of glyphs that may have histories:
the number bounds how often. -/
def deEdited (F : Foreign PD D) : Nat → Val → Option (EditedGlif PD)
  | 0, _ => none
  | n + 1, v => do
    let r ← v.row ["layers", "history", "anchors", "components", "flattened", "component_rects", "guidelines", "width", "unicode",
      "name", "note", "filename"]
    let layers ← r.need 0 (list (layer F)).de
    let history ← r.need 1 (deSeq (deEntry F (deEdited F n)))
    let anchors ← r.need 2 (list (anchor F)).de
    let components ← r.need 3 (glifComponents F).de
    let flattened ← r.opt 4 (option (list (list (point F.pd)))).de
    let componentRects ← r.opt 5 (option (list componentRect)).de
    let guidelines ← r.need 6 (list (guideline F)).de
    let width ← r.opt 7 (option u64).de
    let unicode ← r.need 8 (list char).de
    let name ← r.need 9 str.de
    let note ← r.opt 10 (option str).de
    let filename ← r.opt 11 (option F.path).de
    some (.mk { layers, anchors, components, flattened, componentRects, guidelines, width, unicode, name, note, filename } history)

/-- src/glif/mfek/mod.rs 33-53; no value has more histories in histories than it is deep. -/
def edited (F : Foreign PD D) : Serde (EditedGlif PD) where
  ser := serEdited F
  de v := deEdited F v.depth v

/-! ## The library's own data of points -/

/-- src/glif/mfek/pointdata.rs 2-11 -/
inductive MfekPointData where
  | guideline (fixed format right : Bool)
  deriving DecidableEq, Repr

/-- src/glif/mfek/pointdata.rs 2-11 -/
def mfekPointData : Serde MfekPointData where
  ser | .guideline a b c => .variant "Guideline" (.struct [("fixed", bool.ser a), ("format", bool.ser b), ("right", bool.ser c)])
  de
    | .variant n v =>
      if n = "Guideline" then do
        let r ← v.row ["fixed", "format", "right"]
        let a ← r.need 0 bool.de
        let b ← r.need 1 bool.de
        let c ← r.need 2 bool.de
        some (.guideline a b c)
      else none
    | _ => none

end GP.Serde
