import Mathlib.Data.List.Forall2
import Verif.Model.Glif
import Verif.Spec.Decimal
import Verif.Spec.Pedantry
/-!
# What a document says, independently of how it is traversed
-/
open Fl Fl.Text
namespace GP.Spec

/-- The child elements of a given name, in order. -/
def named (n : String) (cs : List Node) : List Element :=
  cs.filterMap fun c =>
    match c with
    | .elem name attrs children => if name = n then some { name := name, attrs := attrs, children := children } else none
    | _ => none

/-- Names of the children of `<glyph>` that mean something. -/
def glyphNames : List String :=
  ["advance", "unicode", "anchor", "image", "guideline", "note", "outline", "lib"]

/-- Names of the children of `<outline>` that mean something. -/
def outlineNames : List String := ["contour", "component"]

/-- A node that means nothing among the children of an element which only has children with the
given names. -/
def Ignorable (names : List String) : Node → Prop
  | .elem name _ _ => name ∉ names
  | _ => True

/-! ## Documents that say the same -/

/-- Elements of which only the attributes matter. -/
def SameLeaf (e f : Element) : Prop := ∀ k, e.get k = f.get k

/-- The same `<point>`s. -/
def SameContour (e f : Element) : Prop :=
  List.Forall₂ SameLeaf (named "point" e.children) (named "point" f.children)

/-- The same `<contour>`s and the same `<component>`s. -/
def SameOutline (e f : Element) : Prop :=
  List.Forall₂ SameContour (named "contour" e.children) (named "contour" f.children) ∧
  List.Forall₂ SameLeaf (named "component" e.children) (named "component" f.children)

/-- The pieces of text among some nodes. -/
def texts (cs : List Node) : List Str :=
  cs.filterMap fun c =>
    match c with
    | .text s => some s
    | .cdata s => some s
    | _ => none

/-- The pieces of text of the note: those of the first `<note>`, none if there is no `<note>`. -/
def noteTexts (cs : List Node) : List Str :=
  match (named "note" cs).head? with
  | some e => texts e.children
  | none => []

/-- The same attributes and content. -/
def SameLib (e f : Element) : Prop := e.attrs = f.attrs ∧ e.children = f.children

/-- Two documents that have, for each known name of an element, the same children of that name, and the
same note. -/
structure SameDoc (r s : Element) : Prop where
  name : r.name = s.name
  attrs : SameLeaf r s
  advance : List.Forall₂ SameLeaf (named "advance" r.children) (named "advance" s.children)
  unicode : List.Forall₂ SameLeaf (named "unicode" r.children) (named "unicode" s.children)
  anchor : List.Forall₂ SameLeaf (named "anchor" r.children) (named "anchor" s.children)
  image : List.Forall₂ SameLeaf (named "image" r.children) (named "image" s.children)
  guideline : List.Forall₂ SameLeaf (named "guideline" r.children) (named "guideline" s.children)
  note : noteTexts r.children = noteTexts s.children
  outline : List.Forall₂ SameOutline (named "outline" r.children) (named "outline" s.children)
  lib : List.Forall₂ SameLib (named "lib" r.children) (named "lib" s.children)

/-- `ds` is `cs` with ignorable nodes put in anywhere, and with nodes replaced according to `rel`. -/
inductive Padded (names : List String) (rel : Node → Node → Prop) : List Node → List Node → Prop
  | nil : Padded names rel [] []
  | keep (c d : Node) (cs ds : List Node) : rel c d → Padded names rel cs ds → Padded names rel (c :: cs) (d :: ds)
  | pad (n : Node) (cs ds : List Node) : Ignorable names n → Padded names rel cs ds → Padded names rel cs (n :: ds)

/-- The same node, or a `<contour>` with nodes put in that are not `<point>`s. -/
def PaddedContour (c d : Node) : Prop :=
  c = d ∨ ∃ attrs cs ds, c = .elem "contour" attrs cs ∧ d = .elem "contour" attrs ds ∧ Padded ["point"] Eq cs ds

/-- The same node, or an `<outline>` with nodes put in that are neither `<contour>`s nor
`<component>`s, and with contours padded. -/
def PaddedOutline (c d : Node) : Prop :=
  c = d ∨ ∃ attrs cs ds, c = .elem "outline" attrs cs ∧ d = .elem "outline" attrs ds ∧
    Padded outlineNames PaddedContour cs ds

/-- A document with unknown nodes put in among the children of `<glyph>`, `<outline>` and
`<contour>`. -/
def PaddedDoc (r s : Element) : Prop :=
  r.name = s.name ∧ r.attrs = s.attrs ∧ Padded glyphNames PaddedOutline r.children s.children

/-! ## Documents that can be read -/

/-- The attribute is there and is a number. -/
def HasNumber (e : Element) (k : String) : Prop := ∃ s, e.get k = some s ∧ IsNumber s

/-- The attribute is there and is an integer of 32 bits. -/
def HasInteger (e : Element) (k : String) : Prop :=
  ∃ s i, e.get k = some s ∧ IntText s i ∧ -(2 ^ 31) ≤ i ∧ i < 2 ^ 31

/-- The attribute is missing or a number. -/
def MaybeNumber (e : Element) (k : String) : Prop := ∀ s, e.get k = some s → IsNumber s

/-- The transformation attributes that are there are numbers. -/
def MatrixOk (e : Element) : Prop :=
  ∀ k ∈ ["xScale", "xyScale", "yxScale", "yScale", "xOffset", "yOffset"], MaybeNumber e k

/-- A colour, if there, starts with four comma separated numbers. -/
def ColorOk (e : Element) : Prop :=
  ∀ s, e.get "color" = some s → ∃ a b c d, FourFields s a b c d ∧
    IsNumber a ∧ IsNumber b ∧ IsNumber c ∧ IsNumber d

/-- A width: an integer below 2^64 or, if mending is allowed, a float that is not subnormal. -/
def WidthOk (ped : Pedantry) (w : Str) : Prop :=
  (∃ n, Signed 10 w n ∧ n < 2 ^ 64) ∨
  (¬ Strictest ped ∧ ∃ f : F32, FloatText b32 w f ∧ f.isSubnormal = false)

/-- A document without a mistake that the reader reports. -/
structure Acceptable (ped : Pedantry) (root : Element) : Prop where
  tag : root.name = "glyph"
  format : root.get "format" = some "2".toList
  name : ∃ n, root.get "name" = some n
  advance : ∀ e, (named "advance" root.children).head? = some e → ∃ w, e.get "width" = some w ∧ WidthOk ped w
  unicode : ∀ e ∈ named "unicode" root.children, ∃ h, e.get "hex" = some h ∧ ∃ c : Char, Signed 16 h c.toNat
  anchor : ∀ e ∈ named "anchor" root.children, HasNumber e "x" ∧ HasNumber e "y" ∧
    (ped.mend = .always ∨ (HasInteger e "x" ∧ HasInteger e "y"))
  image : ∀ e ∈ named "image" root.children, (∃ f, e.get "fileName" = some f) ∧ MatrixOk e ∧ ColorOk e
  guideline : ∀ e ∈ named "guideline" root.children, HasNumber e "x" ∧ HasNumber e "y" ∧ HasNumber e "angle" ∧ ColorOk e
  outline : ∀ o, (named "outline" root.children).head? = some o →
    (∀ c ∈ named "contour" o.children, ∀ p ∈ named "point" c.children, HasNumber p "x" ∧ HasNumber p "y") ∧
    (∀ c ∈ named "component" o.children, MatrixOk c ∧ ∃ b, c.get "base" = some b)

/-! ## Contours of a document -/

/-- The `<contour>`s that count: those of the first `<outline>`. -/
def contoursOf (root : Element) : List Element :=
  match (named "outline" root.children).head? with
  | some o => named "contour" o.children
  | none => []

/-- The types that a file can give an on-curve point. -/
def onCurveTypes : List Str := ["move".toList, "line".toList, "curve".toList, "qcurve".toList]

/-- The point of the file is of that (on-curve) type. -/
def OfType (p : Element) (t : String) : Prop := p.get "type" = some t.toList

/-- A point without a type, or with an unknown one, is off-curve. -/
def IsOff (p : Element) : Prop := ∀ t, p.get "type" = some t → t ∉ onCurveTypes

/-- A contour of the file that starts like a cubic contour but has a quadratic segment. -/
def QuadraticInCubic (c : Element) : Prop :=
  ∃ p ps, named "point" c.children = p :: ps ∧ (OfType p "move" ∨ OfType p "line" ∨ OfType p "curve") ∧
    ∃ q ∈ ps, OfType q "qcurve"

/-- A contour of the file that has no point, starts with an off-curve point, or is a `move` followed by
off-curve points only. -/
def Dropped (c : Element) : Prop :=
  match named "point" c.children with
  | [] => True
  | p :: ps => IsOff p ∨ (OfType p "move" ∧ ∀ q ∈ ps, IsOff q)

/-- A quadratic contour of the file that ends with an off-curve point. -/
def QuadraticEndingOff (c : Element) : Prop :=
  ∃ p ps q, named "point" c.children = p :: ps ∧ OfType p "qcurve" ∧ ps.getLast? = some q ∧ IsOff q

end GP.Spec
