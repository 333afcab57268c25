import Verif.Spec.Read
import Verif.Spec.ContourIO
/-!
# What should be written for a glyph, for C95

Written from the UFO description of `.glif` files: the elements, the attributes that each has and no others, and the
texts of their values by the grammar of numbers.  Nothing here refers to how the code prints or orders anything.
-/
open Fl
namespace GP.Spec
variable {PD D : Type}

/-- The text denotes exactly that number. -/
def Denotes (s : Str) (x : IOF) : Prop :=
  match x with
  | .int i _ => IntText s i
  | .float f => FloatText b32 s f

/-- Exactly these attributes, each with a value of the kind wanted. -/
def AttrsAre (e : Element) (l : List (String × (Str → Prop))) : Prop :=
  (∀ k s, e.get k = some s → ∃ x ∈ l, x.1 = k ∧ x.2 s) ∧ ∀ x ∈ l, ∃ s, e.get x.1 = some s ∧ x.2 s

/-- An attribute that is there if there is a value for it. -/
def ifAny {α : Type} (k : String) (P : α → Str → Prop) : Option α → List (String × (Str → Prop))
  | some a => [(k, P a)]
  | none => []

/-- A text as it is. -/
def Verbatim (v s : Str) : Prop := s = v

/-- The six coefficients of a transformation. -/
def coefficients (m : Mat6) : List (String × (Str → Prop)) :=
  [("xScale", (Denotes · m.xScale)), ("xyScale", (Denotes · m.xyScale)), ("yxScale", (Denotes · m.yxScale)),
   ("yScale", (Denotes · m.yScale)), ("xOffset", (Denotes · m.xOffset)), ("yOffset", (Denotes · m.yOffset))]

/-- A colour: four numbers, red, green, blue and opacity. -/
def ColorDenoted (c : Color) (s : Str) : Prop :=
  ∃ r g b a, OnlyFour s r g b a ∧ Denotes r c.r ∧ Denotes g c.g ∧ Denotes b c.b ∧ Denotes a c.a

/-- An element without contents. -/
def Leaf (n : String) (l : List (String × (Str → Prop))) (e : Element) : Prop :=
  e.name = n ∧ e.children = [] ∧ AttrsAre e l

def AdvanceWritten (w : Nat) : Element → Prop := Leaf "advance" [("width", (Numeral 10 · w))]

def UnicodeWritten (c : Char) : Element → Prop := Leaf "unicode" [("hex", (Numeral 16 · c.toNat))]

def AnchorWritten (a : Anchor) : Element → Prop :=
  Leaf "anchor" ([("x", (FloatText b32 · a.x)), ("y", (FloatText b32 · a.y))] ++ ifAny "name" Verbatim a.cls)

def ImageWritten (i : GlifImage) : Element → Prop :=
  Leaf "image" ([("fileName", Verbatim i.filename)] ++ coefficients i.m ++ ifAny "identifier" Verbatim i.identifier)

def ComponentWritten (c : GlifComponent) : Element → Prop :=
  Leaf "component" ([("base", Verbatim c.base)] ++ coefficients c.m ++ ifAny "identifier" Verbatim c.identifier)

def GuidelineWritten (g : Guideline) : Element → Prop :=
  Leaf "guideline" ([("x", (FloatText b32 · g.x)), ("y", (FloatText b32 · g.y)), ("angle", (Denotes · g.angle))] ++
    ifAny "color" ColorDenoted g.color ++ ifAny "name" Verbatim g.name ++ ifAny "identifier" Verbatim g.identifier)

/-- The name of a point type, for the types that have one in the format. -/
def typeName : PointType → Option String
  | .move => some "move"
  | .line => some "line"
  | .curve => some "curve"
  | .qcurve => some "qcurve"
  | _ => none

/-- A point: without type if it is off-curve, smooth only if said so. -/
def PointWritten (p : GlifPoint) : Element → Prop :=
  Leaf "point" ([("x", (Denotes · p.x)), ("y", (Denotes · p.y))] ++
    ifAny "type" (fun t s => s = t.toList) (typeName p.ptype) ++ ifAny "name" Verbatim p.name ++
    if p.smooth then [("smooth", Verbatim "yes".toList)] else [])

/-- An element with these contents only and no attributes. -/
def Encloses (n : String) (els : List Element) (e : Element) : Prop :=
  e.name = n ∧ e.attrs = [] ∧ e.children = els.map fun x => .elem x.name x.attrs x.children

/-- A contour: its points in cyclic order, each on-curve point after the off-curve points of its segment, beginning
at some on-curve point. -/
def ContourWritten (c : Contour PD) (e : Element) : Prop :=
  ∃ p ps els, Rotated (fileCycle c) (p :: ps) ∧ p.ptype ≠ .offcurve ∧ List.Forall₂ PointWritten (p :: ps) els ∧
    Encloses "contour" els e

/-- The outline: contours, then components; there is none for a glyph that has neither. -/
def OutlineWritten (g : Glif PD D) (l : List Element) : Prop :=
  (g.outline.getD [] = [] ∧ g.components.vec = [] ∧ l = []) ∨
  ((g.outline.getD [] ≠ [] ∨ g.components.vec ≠ []) ∧ ∃ o cs ks, l = [o] ∧ Encloses "outline" (cs ++ ks) o ∧
    List.Forall₂ ContourWritten (g.outline.getD []) cs ∧ List.Forall₂ ComponentWritten g.components.vec ks)

/-- A note is its text. -/
def NoteWritten (n : Str) (e : Element) : Prop := e.name = "note" ∧ e.attrs = [] ∧ e.children = [.text n]

/-- The contents of the lib that is kept or that `plist` makes of the dictionary. -/
def libOf (pio : PlistIO D) : Lib D → Option (List Node)
  | .plist d => (pio.toXml d).map Element.children
  | .xml e => some e.children
  | .none => none

def LibWritten (cs : List Node) (e : Element) : Prop := e.name = "lib" ∧ e.attrs = [] ∧ e.children = cs

/-- The document says all that the format can say of the glyph, and nothing else. -/
structure Wrote (pio : PlistIO D) (g : Glif PD D) (root : Element) : Prop where
  glyph : root.name = "glyph"
  attrs : AttrsAre root [("name", Verbatim g.name), ("format", Verbatim "2".toList)]
  known : ∀ c ∈ root.children, ∃ n ∈ glyphNames, ∃ a b, c = Node.elem n a b
  advance : List.Forall₂ AdvanceWritten g.width.toList (named "advance" root.children)
  unicode : List.Forall₂ UnicodeWritten g.unicode (named "unicode" root.children)
  anchors : List.Forall₂ AnchorWritten g.anchors (named "anchor" root.children)
  outline : OutlineWritten g (named "outline" root.children)
  images : List.Forall₂ ImageWritten g.images (named "image" root.children)
  guidelines : List.Forall₂ GuidelineWritten g.guidelines (named "guideline" root.children)
  note : List.Forall₂ NoteWritten g.note.toList (named "note" root.children)
  lib : List.Forall₂ LibWritten (libOf pio g.lib).toList (named "lib" root.children)

end GP.Spec
