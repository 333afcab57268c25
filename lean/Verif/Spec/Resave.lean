import Verif.Spec.ContourIO
import Verif.Spec.File
import Verif.Spec.Strings
/-!
# What comes back when a glyph is saved and read again
-/
open Fl
namespace GP.Spec
variable {PD D : Type}

/-- The same number: an integer stays; a float keeps its value, but for the sign of zero.  (It may
come back as an integer.) -/
def SameNumber (x y : IOF) : Prop := y.toF32 = x.toF32.normZero ∧ ∀ i h, x = .int i h → y = x

/-- The same six coefficients. -/
def SameMatrix (m n : Mat6) : Prop :=
  SameNumber m.xScale n.xScale ∧ SameNumber m.xyScale n.xyScale ∧ SameNumber m.yxScale n.yxScale ∧
  SameNumber m.yScale n.yScale ∧ SameNumber m.xOffset n.xOffset ∧ SameNumber m.yOffset n.yOffset

/-- The same colour. -/
def SameColor (c d : Color) : Prop :=
  SameNumber c.r d.r ∧ SameNumber c.g d.g ∧ SameNumber c.b d.b ∧ SameNumber c.a d.a

/-- The same component; the file name is not part of a `.glif` file. -/
def SameComponent (c d : GlifComponent) : Prop :=
  d.base = c.base ∧ d.identifier = c.identifier ∧ d.filename = none ∧ SameMatrix c.m d.m

/-- The same image but for its colour. -/
def SameImage (i j : GlifImage) : Prop :=
  j.filename = i.filename ∧ j.identifier = i.identifier ∧ SameMatrix i.m j.m

/-- The same guideline. -/
def SameGuideline (g h : Guideline) : Prop :=
  h.x = g.x ∧ h.y = g.y ∧ h.name = g.name ∧ h.identifier = g.identifier ∧ SameNumber g.angle h.angle ∧
  Option.Rel SameColor g.color h.color

/-- The same anchor; its type says whether the class starts with an underscore. -/
def SameAnchor (a b : Anchor) : Prop :=
  b.x = a.x.normZero ∧ b.y = a.y.normZero ∧ b.cls = a.cls ∧ (b.atype = .mark ↔ ∃ r, a.cls = some ('_' :: r))

/-- A handle without negative zeros. -/
def unsignedHandle : Handle → Handle
  | .at x y => .at x.normZero y.normZero
  | .colocated => .colocated

/-- A point without negative zeros. -/
def unsigned (p : Point PD) : Point PD :=
  { p with x := p.x.normZero, y := p.y.normZero, a := unsignedHandle p.a, b := unsignedHandle p.b }

/-- Is the contour a single `move` point? -/
def loneMove (c : Contour PD) : Bool :=
  match c with
  | [p] => p.ptype == .move
  | _ => false

/-- The contours as they come back: lone `move` points are gone, the others are as stored (see
`Spec.ContourIO`), without negative zeros. -/
def resavedOutline (o : Outline PD) : Outline PD :=
  (o.filter fun c => !loneMove c).map fun c => (stored c).map unsigned

/-- `g'` is what comes back for `g`. -/
structure Resaved (g g' : Glif PD D) : Prop where
  name : g'.name = g.name
  width : g'.width = g.width
  unicode : g'.unicode = g.unicode
  anchors : List.Forall₂ SameAnchor g.anchors g'.anchors
  guidelines : List.Forall₂ SameGuideline g.guidelines g'.guidelines
  images : List.Forall₂ SameImage g.images g'.images
  imageColors : ∀ i ∈ g'.images, i.color = none
  components : List.Forall₂ SameComponent g.components.vec g'.components.vec
  componentRoot : g'.components.root = g.name ∧ g'.components.uniques = []
  note : g'.note = g.note
  lib : g'.lib = g.lib
  filename : g'.filename = none
  outline : g'.outline.getD [] = resavedOutline (g.outline.getD [])
  outlineNone : g'.outline = none ↔ resavedOutline (g.outline.getD []) = [] ∧ g.components.vec = []

/-- The lib survives printing and parsing by the libraries: a dictionary comes back as itself; raw XML
is the unprintable kind that the reader keeps. -/
def LibSurvives (pio : PlistIO D) : Lib D → Prop
  | .none => True
  | .plist d => ∃ e, pio.toXml d = some e ∧ pio.fromXml { name := "plist", attrs := [], children := e.children } = some (some d)
  | .xml e => e.name = "plist" ∧ e.attrs = [] ∧ pio.fromXml e = none

/-- A glyph that can be saved without loss (up to `Resaved`). -/
structure Saveable (pio : PlistIO D) (g : Glif PD D) : Prop where
  contours : ∀ o, g.outline = some o → ∀ c ∈ o, c ≠ [] ∧ Cubic c
  width : ∀ w, g.width = some w → w < 2 ^ 64
  classes : ∀ a ∈ g.anchors, ∀ s, a.cls = some s → s ≠ [] ∧ ∀ c ∈ s, ¬ Control c
  lib : LibSurvives pio g.lib

/-- A contour that has an on-curve point, and no points but those of lines, cubic curves and off-curve points. -/
def SavedAgain (c : Contour PD) : Prop :=
  (∃ p ∈ c, p.ptype ≠ .offcurve) ∧
    ∀ p ∈ c, p.ptype = .move ∨ p.ptype = .line ∨ p.ptype = .curve ∨ p.ptype = .offcurve

/-- What a further save does to a contour: its start moves back by one if it is a curve point. -/
def stepBack (c : Contour PD) : Contour PD :=
  match c with
  | p :: _ => if p.ptype = .curve then startEarlier c else c
  | [] => []

end GP.Spec
