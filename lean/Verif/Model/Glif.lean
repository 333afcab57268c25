import Verif.Model.Xml
import Verif.Model.Outline
import Verif.Model.Text
/-!
# The glyph, read from and turned into an element tree

src/glif.rs, src/glif/read.rs, src/glif/write.rs, src/glif/lib.rs, src/glif/xml.rs,
src/component.rs 24-77, src/component/xml.rs, src/image.rs 87-140, src/image/xml.rs,
src/guideline.rs, src/guideline/xml.rs, src/anchor/xml.rs, src/point/xml.rs, src/outline/xml.rs,
src/outline/contour/xml.rs, src/matrix/write.rs, src/codepoint.rs 14-20, with features `glifserde`
and `glifimage`.
-/
open Fl Fl.Text
namespace GP
variable {PD D : Type}

/-! ## Data -/

/-- The six coefficients that `GlifComponent` (src/component.rs 27-36) and `GlifImage`
(src/image.rs 87-98) both have as fields; src/matrix.rs 16-17 `GlifMatrix`. -/
structure Mat6 where
  xScale : IOF
  xyScale : IOF
  yxScale : IOF
  yScale : IOF
  xOffset : IOF
  yOffset : IOF
  deriving DecidableEq, Repr

/-- src/component.rs 24-37 -/
structure GlifComponent where
  base : Str
  filename : Option Path
  m : Mat6
  identifier : Option Str
  deriving DecidableEq, Repr

/-- `1.0f32` -/
def one32 : F32 := Flt.ofInt b32 1

/-- src/component.rs 56-64 -/
def GlifComponent.new : GlifComponent :=
  { base := [], filename := none, identifier := none,
    m := { xScale := .float one32, xyScale := default, yxScale := default, yScale := .float one32,
           xOffset := default, yOffset := default } }

/-- src/component.rs 39-54.  `uniques` is a set. -/
structure GlifComponents where
  root : Str := []
  vec : List GlifComponent := []
  uniques : List Str := []
  deriving DecidableEq, Repr

/-- src/image.rs 85-98.  The file name is a path; only paths that are UTF-8 are modelled, as the
text they were made from. -/
structure GlifImage where
  filename : Str
  m : Mat6
  identifier : Option Str
  color : Option Color
  deriving DecidableEq, Repr

/-- src/image.rs 119-139 -/
def GlifImage.fromFilename (f : Str) : GlifImage :=
  { filename := f, identifier := none, color := none,
    m := { xScale := .int 1, xyScale := .int 0, yxScale := .int 0, yScale := .int 1,
           xOffset := .int 0, yOffset := .int 0 } }

/-- src/guideline.rs 29-38.  `data` is `GD::default()` in all code modelled, so it is left out. -/
structure Guideline where
  x : F32
  y : F32
  angle : IOF
  name : Option Str
  color : Option Color
  identifier : Option Str
  deriving DecidableEq, Repr

/-- src/glif/lib.rs 8-17.  `D` stands for `plist::Dictionary`. -/
inductive Lib (D : Type) where
  | none
  | plist (d : D)
  | xml (e : Element)

/-- src/glif.rs 36-69 -/
structure Glif (PD D : Type) where
  outline : Option (Outline PD) := .none
  anchors : List Anchor := []
  components : GlifComponents := {}
  guidelines : List Guideline := []
  images : List GlifImage := []
  width : Option Nat := .none
  unicode : List Char := []
  name : Str := []
  note : Option Str := .none
  filename : Option Path := .none
  lib : Lib D := .none

/-- The crate `plist`, together with printing and parsing of XML.
* `fromXml`: src/glif/read.rs 294; `none` if `lib.write` fails, `some none` if `plist::from_bytes`
  fails.
* `toXml`: src/glif/write.rs 94; `none` if `to_writer_xml` or `Element::parse` fails. -/
structure PlistIO (D : Type) where
  fromXml : Element → Option (Option D)
  toXml : D → Option Element

/-! ## Reading -/

/-- `attributes.get(k).ok_or(input_error!(..))?` -/
def need (e : Element) (k : String) (msg : String) : R Str := Out.ofOption (.input msg) (e.get k)

/-- `.parse().or(Err(input_error!(..)))?` of an `IntegerOrFloat` attribute that has to be there. -/
def needIof (e : Element) (k : String) (missing bad : String) : R IOF := do
  let s ← need e k missing
  Out.ofOption (.input bad) (IOF.parse s)

/-- The same for an `f32`. -/
def needF32 (e : Element) (k : String) (missing bad : String) : R F32 := do
  let s ← need e k missing
  Out.ofOption (.input bad) (parseFloat b32 s)

/-- One coefficient in `load_matrix_and_identifier!`, src/glif/read.rs 33-40. -/
def optIof (e : Element) (k : String) (dflt : IOF) : R IOF :=
  match e.get k with
  | some s => Out.ofOption (.input ("Matrix member " ++ k ++ " not float")) (IOF.parse s)
  | none => .ok dflt

/-- `load_matrix_and_identifier!`, src/glif/read.rs 30-44, the matrix. -/
def loadMatrix (e : Element) (m : Mat6) : R Mat6 := do
  let xScale ← optIof e "xScale" m.xScale
  let xyScale ← optIof e "xyScale" m.xyScale
  let yxScale ← optIof e "yxScale" m.yxScale
  let yScale ← optIof e "yScale" m.yScale
  let xOffset ← optIof e "xOffset" m.xOffset
  let yOffset ← optIof e "yOffset" m.yOffset
  .ok { xScale := xScale, xyScale := xyScale, yxScale := yxScale, yScale := yScale,
        xOffset := xOffset, yOffset := yOffset }

/-- `if let Some(color) = attributes.get("color") { x.color = Some(color.parse()?) }`,
src/glif/read.rs 178-180 and 213-215 -/
def optColor (e : Element) : R (Option Color) :=
  match e.get "color" with
  | some s => do
    let c ← Color.parse s
    .ok (some c)
  | none => .ok none

/-- src/glif/read.rs 98-116 -/
def readAdvance (ped : Pedantry) (e : Element) : R Nat := do
  let w ← need e "width" "<advance> has no width"
  readWidth ped w

/-- src/glif/read.rs 122-134 -/
def readUnicode (e : Element) : R Char := do
  let h ← need e "hex" "<unicode> has no hex"
  readCodepoint h

/-- src/glif/read.rs 140-161 -/
def readAnchor (ped : Pedantry) (e : Element) : R Anchor := do
  let x ← needIof e "x" "<anchor> missing x" "<anchor> x not integer/float"
  let y ← needIof e "y" "<anchor> missing y" "<anchor> y not integer/float"
  Anchor.fromGlif { x := x, y := y, cls := anchorClass (e.get "name") } ped

/-- src/glif/read.rs 168-183 -/
def readImage (e : Element) : R GlifImage := do
  let f ← need e "fileName" "<image> missing fileName"
  let img := GlifImage.fromFilename f
  let m ← loadMatrix e img.m
  let c ← optColor e
  .ok { img with m := m, identifier := e.get "identifier", color := c }

/-- src/glif/read.rs 190-221 -/
def readGuideline (e : Element) : R Guideline := do
  let x ← needF32 e "x" "<guideline> missing x" "<guideline> x not float"
  let y ← needF32 e "y" "<guideline> missing y" "<guideline> x not float"
  let angle ← needIof e "angle" "<guideline> missing angle" "<guideline> angle not float"
  let c ← optColor e
  .ok { x := x, y := y, angle := angle, name := e.get "name", color := c, identifier := e.get "identifier" }

/-- src/glif/read.rs 237-275 -/
def readPoint (e : Element) : R GlifPoint := do
  let x ← needIof e "x" "<point> missing x" "<point> x not float"
  let y ← needIof e "y" "<point> missing y" "<point> y not float"
  let ptype := PointType.parse ((e.get "type").getD "offcurve".toList)
  let smooth := match e.get "smooth" with
    | some s => if s = "yes".toList then ptype != .offcurve else false
    | none => false
  if ptype.isValid then
    .ok { x := x, y := y, smooth := smooth, name := e.get "name", ptype := ptype }
  else .err (.input ("Shouldn't write <point type=" ++ String.ofList ptype.text ++ "> to UFO .glif!"))

/-- src/glif/read.rs 235-276 -/
def readContour (e : Element) : R GlifContour := do
  let (ps, _) ← takeLoop "point" readPoint e.children
  .ok ps

/-- src/glif/read.rs 283-286 -/
def readComponent (e : Element) : R GlifComponent := do
  let m ← loadMatrix e GlifComponent.new.m
  let base ← need e "base" "<component> missing base"
  .ok { GlifComponent.new with base := base, m := m, identifier := e.get "identifier" }

/-- src/glif/read.rs 234-287: the file contours that have a point, and the components. -/
def readOutline (e : Element) : R (List GlifContour × List GlifComponent) := do
  let (cs, left) ← takeLoop "contour" readContour e.children
  let (comps, _) ← takeLoop "component" readComponent left
  .ok (cs.filter (fun c => !c.isEmpty), comps)

/-- src/glif/read.rs 291-304 -/
def readLib (pio : PlistIO D) (e : Element) : Lib D :=
  let lib := { e with name := "plist" }
  match pio.fromXml lib with
  | some (some d) => .plist d
  | none => .xml lib
  | some none => .none

/-- `take_child` when the rest of the children is needed too. -/
def takeOpt (n : String) (cs : List Node) : Option Element × List Node :=
  match takeChild n cs with
  | some (e, r) => (some e, r)
  | none => (none, cs)

/-- `Option<Element>` read with a fallible function. -/
def readOpt {α : Type} (f : Element → R α) : Option Element → R (Option α)
  | some e => do
    let a ← f e
    .ok (some a)
  | none => .ok none

/-- src/glif/read.rs 74-317, after `Element::parse`.  `mid` is the midpoint of `IntegerOrFloat`s
(see `quadStep`). -/
def readGlif (mid : IOF → IOF → IOF) (pio : PlistIO D) (ped : Pedantry) (root : Element) : R (Glif PD D) := do
  if root.name ≠ "glyph" then .err (.input "Root element not <glyph>") else do
  let format ← need root "format" "no format in <glyph>"
  if format ≠ "2".toList then .err (.input "<glyph> format not 2") else do
  let name ← need root "name" "<glyph> has no name"
  let (advance, cs) := takeOpt "advance" root.children
  let width ← readOpt (readAdvance ped) advance
  let (unicode, cs) ← takeLoop "unicode" readUnicode cs
  let (anchors, cs) ← takeLoop "anchor" (readAnchor ped) cs
  let (images, cs) ← takeLoop "image" readImage cs
  let (guidelines, cs) ← takeLoop "guideline" readGuideline cs
  let (noteEl, cs) := takeOpt "note" cs
  let (outlineEl, cs) := takeOpt "outline" cs
  let o ← readOpt readOutline outlineEl
  let goutline := (o.map Prod.fst).getD []
  let comps := (o.map Prod.snd).getD []
  let (libEl, _) := takeOpt "lib" cs
  let lib := match libEl with
    | some e => readLib pio e
    | none => .none
  let outline ← outlineOfGlif mid goutline
  .ok { outline := if !outline.isEmpty || !comps.isEmpty then some outline else none
        anchors := anchors, components := { root := name, vec := comps }, guidelines := guidelines
        images := images, width := width, unicode := unicode, name := name
        note := noteEl.bind Element.getText, filename := none, lib := lib }

/-! ## Writing -/

/-- src/matrix/write.rs 3-16 -/
def writeMatrix (e : Element) (m : Mat6) (identifier : Option Str) : Element :=
  ((((((e.setOpt "identifier" identifier).set "xScale" m.xScale.text).set "xyScale" m.xyScale.text).set
    "yxScale" m.yxScale.text).set "yScale" m.yScale.text).set "xOffset" m.xOffset.text).set "yOffset" m.yOffset.text

/-- src/glif/xml.rs 14-18 -/
def advanceXml (w : Nat) : Element := ({ name := "advance" } : Element).set "width" (toDigits 10 w)

/-- src/codepoint.rs 14-20 -/
def unicodeXml (c : Char) : Element := ({ name := "unicode" } : Element).set "hex" (codepointDisplay c)

/-- src/anchor/xml.rs 6-16 -/
def anchorXml (a : Anchor) : Element :=
  ((({ name := "anchor" } : Element).set "x" (showFloat a.x)).set "y" (showFloat a.y)).setOpt "name" a.cls

/-- src/point/xml.rs 6-25; the `debug_assert!` is off in a release build. -/
def pointXml (p : GlifPoint) : Element :=
  let el := (({ name := "point" } : Element).set "x" p.x.text).set "y" p.y.text
  let el := if p.ptype.text = "offcurve".toList then el else el.set "type" p.ptype.text
  let el := el.setOpt "name" p.name
  if p.smooth then el.set "smooth" "yes".toList else el

/-- src/outline/contour/xml.rs 7-16 -/
def glifContourXml (gc : GlifContour) : Element :=
  { name := "contour", children := gc.map fun p => (pointXml p).node }

/-- src/outline/contour/xml.rs 18-25 -/
def contourXml (c : Contour PD) : R Element := do
  let gc ← intoGlifpoints c
  .ok (glifContourXml gc)

/-- src/outline/xml.rs 8-16 -/
def outlineXml (o : Outline PD) : R Element := do
  let cs ← Out.mapM' contourXml o
  .ok { name := "outline", children := cs.map Element.node }

/-- src/component/xml.rs 6-15 -/
def componentXml (c : GlifComponent) : Element :=
  writeMatrix (({ name := "component" } : Element).set "base" c.base) c.m c.identifier

/-- src/image/xml.rs 7-24, for a UTF-8 file name (the only kind modelled) -/
def imageXml (i : GlifImage) : Element :=
  writeMatrix (({ name := "image" } : Element).set "fileName" i.filename) i.m i.identifier

/-- src/guideline/xml.rs 6-23 -/
def guidelineXml (g : Guideline) : Element :=
  ((((({ name := "guideline" } : Element).set "x" (showFloat g.x)).set "y" (showFloat g.y)).set
    "angle" g.angle.text).setOpt "color" (g.color.map Color.text)).setOpt "name" g.name
    |>.setOpt "identifier" g.identifier

/-- src/glif/write.rs 83-88 -/
def noteXml (n : Str) : Element := { name := "note", children := [.text n] }

/-- src/glif/write.rs 90-116: the `<lib>` element, if one is written. -/
def libXml (pio : PlistIO D) (lib : Lib D) : Option Element :=
  let e := match lib with
    | .plist d => pio.toXml d
    | .xml e => some e
    | .none => none
  e.map fun e => { e with name := "lib", attrs := [] }

/-- src/glif/write.rs 45-119 -/
def glifXml (pio : PlistIO D) (g : Glif PD D) : R Element := do
  let glyph := (({ name := "glyph" } : Element).set "name" g.name).set "format" "2".toList
  let advance := match g.width with
    | some w => [(advanceXml w).node]
    | none => []
  let unicode := g.unicode.map fun c => (unicodeXml c).node
  let anchors := g.anchors.map fun a => (anchorXml a).node
  let outline ← match g.outline with
    | some o => outlineXml o
    | none => .ok ({ name := "outline" } : Element)
  let outline := { outline with children := outline.children ++ g.components.vec.map fun c => (componentXml c).node }
  let outlines := if 1 ≤ outline.children.length then [outline.node] else []
  let images := g.images.map fun i => (imageXml i).node
  let guidelines := g.guidelines.map fun l => (guidelineXml l).node
  let note := match g.note with
    | some n => [(noteXml n).node]
    | none => []
  let lib := match libXml pio g.lib with
    | some e => [e.node]
    | none => []
  .ok { glyph with children := advance ++ unicode ++ anchors ++ outlines ++ images ++ guidelines ++ note ++ lib }

/-! ## Files -/

/-- The files that can be read (`fs::read_to_string`) and what `Element::parse` makes of them:
`none` if the file cannot be read, `some none` if it is not XML. -/
abbrev Files := Path → Option (Option Element)

/-- src/component.rs 118-122 -/
def GlifComponent.setFileName (c : GlifComponent) (gliffn : Path) : GlifComponent :=
  { c with filename := some (componentFile gliffn c.base) }

/-- src/glif/read.rs 54-66 -/
def readFromFilename (mid : IOF → IOF → IOF) (pio : PlistIO D) (files : Files) (ped : Pedantry) (f : Path) :
    R (Glif PD D) := do
  let x ← Out.ofOption .fileIo (files f)
  let root ← Out.ofOption .xmlParse x
  let g ← readGlif mid pio ped root
  .ok { g with components := { g.components with vec := g.components.vec.map fun c => c.setFileName f }
               filename := some f }

end GP
