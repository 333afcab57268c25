import Verif.Spec.Read
import Verif.Spec.ContourIO
/-!
# The format of `.glif` files, for C88–C90

Written from the UFO 3 description of `.glif` files, format 2.  Left out: what is inside `<lib>` (a property
list), and the rule that no two contours or code points should be equal.
-/
open Fl
namespace GP.Spec
variable {PD D : Type}

/-! ## Values of attributes -/

/-- A number of the format, `m / 10^fl` or minus that: digits with at most one point and maybe a minus sign. -/
def PlainNumber (s : Str) (neg : Bool) (m fl : Nat) : Prop :=
  ∃ body, ((s = '-' :: body ∧ neg = true) ∨ (s = body ∧ neg = false)) ∧ Mantissa body m fl

/-- Some number of the format. -/
def SomeNumber (s : Str) : Prop := ∃ neg m fl, PlainNumber s neg m fl

/-- A number of the format that is not beyond the largest `f32`. -/
def Representable (s : Str) : Prop := ∃ neg m fl k, PlainNumber s neg m fl ∧ Nearest b32 m (10 ^ fl) k ∧ k ≠ b32.inf

/-- A number from 0 to `n`. -/
def UpTo (n : Nat) (s : Str) : Prop := ∃ neg m fl, PlainNumber s neg m fl ∧ (neg = true → m = 0) ∧ m ≤ n * 10 ^ fl

/-- Red, green, blue and opacity, each from 0 to 1. -/
def ColorText (s : Str) : Prop := ∃ r g b a, OnlyFour s r g b a ∧ UpTo 1 r ∧ UpTo 1 g ∧ UpTo 1 b ∧ UpTo 1 a

/-- A name: not empty and without control characters. -/
def IsName (n : Str) : Prop := n ≠ [] ∧ ∀ c ∈ n, ¬ Control c

/-- An identifier: 1 to 100 printable ASCII characters. -/
def IsIdentifier (s : Str) : Prop := 1 ≤ s.length ∧ s.length ≤ 100 ∧ ∀ c ∈ s, 0x20 ≤ c.toNat ∧ c.toNat ≤ 0x7e

/-! ## Elements -/

/-- The attribute is there and is as it should be. -/
def Needs (e : Element) (k : String) (P : Str → Prop) : Prop := ∃ s, e.get k = some s ∧ P s

/-- The attribute is as it should be if it is there. -/
def May (e : Element) (k : String) (P : Str → Prop) : Prop := ∀ s, e.get k = some s → P s

/-- There are no other attributes. -/
def OnlyAttrs (ks : List String) (e : Element) : Prop := ∀ k s, e.get k = some s → k ∈ ks

/-- There are no other elements, and no text but white space. -/
def OnlyElements (ns : List String) (cs : List Node) : Prop :=
  ∀ c ∈ cs, match c with
    | .elem n _ _ => n ∈ ns
    | .text s => ∀ w ∈ s, w.isWhitespace = true
    | .cdata _ => False
    | .comment _ => True
    | .pi _ => True

/-- The attributes of a transformation. -/
def matrixAttrs : List String := ["xScale", "xyScale", "yxScale", "yScale", "xOffset", "yOffset"]

/-- `<advance>` -/
def AdvanceForm (num : Str → Prop) (e : Element) : Prop := OnlyAttrs ["width", "height"] e ∧ May e "width" num ∧ May e "height" num

/-- `<unicode>` -/
def UnicodeForm (e : Element) : Prop := OnlyAttrs ["hex"] e ∧ Needs e "hex" fun h => ∃ c : Char, Numeral 16 h c.toNat

/-- `<image>` -/
def ImageForm (num : Str → Prop) (e : Element) : Prop :=
  OnlyAttrs ("fileName" :: "color" :: matrixAttrs) e ∧ Needs e "fileName" (· ≠ []) ∧ May e "color" ColorText ∧
  ∀ k ∈ matrixAttrs, May e k num

/-- `<guideline>`: a place and an angle, or just one coordinate. -/
def GuidelineForm (num : Str → Prop) (e : Element) : Prop :=
  OnlyAttrs ["x", "y", "angle", "name", "color", "identifier"] e ∧ May e "x" num ∧ May e "y" num ∧
  May e "angle" (fun s => num s ∧ UpTo 360 s) ∧ May e "color" ColorText ∧
  (e.get "x" ≠ none ∨ e.get "y" ≠ none) ∧ (e.get "angle" ≠ none ↔ e.get "x" ≠ none ∧ e.get "y" ≠ none)

/-- `<anchor>` -/
def AnchorForm (num : Str → Prop) (e : Element) : Prop :=
  OnlyAttrs ["x", "y", "name", "color", "identifier"] e ∧ Needs e "x" num ∧ Needs e "y" num ∧ May e "color" ColorText

/-- `<component>` -/
def ComponentForm (num : Str → Prop) (e : Element) : Prop :=
  OnlyAttrs ("base" :: "identifier" :: matrixAttrs) e ∧ Needs e "base" IsName ∧ ∀ k ∈ matrixAttrs, May e k num

/-- `<point>` -/
def PointForm (num : Str → Prop) (e : Element) : Prop :=
  OnlyAttrs ["x", "y", "type", "smooth", "name", "identifier"] e ∧ Needs e "x" num ∧ Needs e "y" num ∧
  May e "type" (fun t => t = "offcurve".toList ∨ t ∈ onCurveTypes) ∧
  May e "smooth" (fun s => s = "no".toList ∨ (s = "yes".toList ∧ ¬ IsOff e))

/-- `<contour>`: a `move` point is the first; neither a `move` nor a `line` point comes after an off-curve
point, nor a `curve` point after three; here the first point comes after the last. -/
def ContourForm (num : Str → Prop) (e : Element) : Prop :=
  OnlyAttrs ["identifier"] e ∧ OnlyElements ["point"] e.children ∧
  (∀ p ∈ named "point" e.children, PointForm num p) ∧
  (∀ p ∈ (named "point" e.children).tail, ¬ OfType p "move") ∧
  (∀ p q r, Rotated (named "point" e.children) (p :: q :: r) → OfType q "move" ∨ OfType q "line" → ¬ IsOff p) ∧
  ∀ p p' p'' q r, Rotated (named "point" e.children) (p :: p' :: p'' :: q :: r) → OfType q "curve" →
    ¬ (IsOff p ∧ IsOff p' ∧ IsOff p'')

/-- `<outline>` -/
def OutlineForm (num : Str → Prop) (e : Element) : Prop :=
  OnlyAttrs [] e ∧ OnlyElements outlineNames e.children ∧
  (∀ c ∈ named "contour" e.children, ContourForm num c) ∧ ∀ c ∈ named "component" e.children, ComponentForm num c

/-! ## Documents -/

/-- The elements that may have an identifier. -/
def identified (root : Element) : List Element :=
  named "guideline" root.children ++ componentsOf root ++ named "anchor" root.children ++ contoursOf root ++
    (contoursOf root).flatMap fun c => named "point" c.children

/-- A document as the format wants it, with `num` for its numbers. -/
structure Conforms (num : Str → Prop) (root : Element) : Prop where
  tag : root.name = "glyph"
  attrs : OnlyAttrs ["name", "format", "formatMinor"] root
  name : Needs root "name" IsName
  format : root.get "format" = some "2".toList
  children : OnlyElements glyphNames root.children
  once : ∀ n ∈ ["advance", "note", "image", "outline", "lib"], (named n root.children).length ≤ 1
  advance : ∀ e ∈ named "advance" root.children, AdvanceForm num e
  unicode : ∀ e ∈ named "unicode" root.children, UnicodeForm e
  image : ∀ e ∈ named "image" root.children, ImageForm num e
  guideline : ∀ e ∈ named "guideline" root.children, GuidelineForm num e
  anchor : ∀ e ∈ named "anchor" root.children, AnchorForm num e
  outline : ∀ e ∈ named "outline" root.children, OutlineForm num e
  identifiers : ∀ s ∈ (identified root).filterMap (·.get "identifier"), IsIdentifier s
  unique : ((identified root).filterMap (·.get "identifier")).Nodup

/-! ## Glyphs -/

/-- Neither NaN nor infinite. -/
def IsFinite (x : F32) : Prop := ∃ neg k h, x = .num neg k h ∧ k ≠ b32.inf

/-- An integer or a finite float. -/
def IsFiniteIof (x : IOF) : Prop := (∃ i h, x = .int i h) ∨ ∃ f, x = .float f ∧ IsFinite f

/-- From 0 to `n`. -/
def Within (n : Nat) (x : IOF) : Prop :=
  (∃ i h, x = .int i h ∧ 0 ≤ i ∧ i ≤ n) ∨
  ∃ neg k h, x = .float (.num neg k h) ∧ (neg = true → k = 0) ∧ b32.val k ≤ n * 2 ^ b32.u

/-- The coefficients are finite. -/
def FiniteMatrix (m : Mat6) : Prop :=
  IsFiniteIof m.xScale ∧ IsFiniteIof m.xyScale ∧ IsFiniteIof m.yxScale ∧ IsFiniteIof m.yScale ∧
  IsFiniteIof m.xOffset ∧ IsFiniteIof m.yOffset

/-- The parts of the colour are from 0 to 1. -/
def ColorWithin (c : Color) : Prop := Within 1 c.r ∧ Within 1 c.g ∧ Within 1 c.b ∧ Within 1 c.a

/-- The handle is at a finite place, if it is anywhere. -/
def PlacedHandle (h : Handle) : Prop := ∀ x y, h = .at x y → IsFinite x ∧ IsFinite y

/-- A point at a finite place, its handles also. -/
def PlacedPoint (p : Point PD) : Prop := IsFinite p.x ∧ IsFinite p.y ∧ PlacedHandle p.a ∧ PlacedHandle p.b

/-- A glyph that has a document in the format. -/
structure Fits (g : Glif PD D) : Prop where
  name : IsName g.name
  /-- always so: a `u64` -/
  width : ∀ w, g.width = some w → w < 2 ^ 64
  anchors : ∀ a ∈ g.anchors, IsFinite a.x ∧ IsFinite a.y
  image : g.images.length ≤ 1
  images : ∀ i ∈ g.images, i.filename ≠ [] ∧ i.identifier = none ∧ FiniteMatrix i.m
  guidelines : ∀ l ∈ g.guidelines, IsFinite l.x ∧ IsFinite l.y ∧ IsFiniteIof l.angle ∧ Within 360 l.angle ∧
    ∀ c, l.color = some c → ColorWithin c
  components : ∀ c ∈ g.components.vec, IsName c.base ∧ FiniteMatrix c.m
  identifiers : ∀ s ∈ g.guidelines.filterMap (·.identifier) ++ g.components.vec.filterMap (·.identifier), IsIdentifier s
  unique : (g.guidelines.filterMap (·.identifier) ++ g.components.vec.filterMap (·.identifier)).Nodup
  points : ∀ o, g.outline = some o → ∀ c ∈ o, ∀ p ∈ c, PlacedPoint p
  moves : ∀ o, g.outline = some o → ∀ c ∈ o, ∀ p ∈ c.tail, p.ptype ≠ .move

/-- The file points of a contour in the order of the file: it starts one earlier if it would start with an off-curve point. -/
def fileOrder (c : Contour PD) : List GlifPoint :=
  match fileCycle c with
  | x :: r => if x.ptype = .offcurve then startEarlier (x :: r) else x :: r
  | [] => []

/-- But for its numbers, the glyph has a document in the format. -/
structure Formed (g : Glif PD D) : Prop where
  name : IsName g.name
  image : g.images.length ≤ 1
  images : ∀ i ∈ g.images, i.filename ≠ [] ∧ i.identifier = none
  guidelines : ∀ l ∈ g.guidelines, Within 360 l.angle ∧ ∀ c, l.color = some c → ColorWithin c
  components : ∀ c ∈ g.components.vec, IsName c.base
  identifiers : ∀ s ∈ g.guidelines.filterMap (·.identifier) ++ g.components.vec.filterMap (·.identifier), IsIdentifier s
  unique : (g.guidelines.filterMap (·.identifier) ++ g.components.vec.filterMap (·.identifier)).Nodup
  moves : ∀ o, g.outline = some o → ∀ c ∈ o, ∀ p ∈ (fileOrder c).tail, p.ptype ≠ .move

/-- All numbers of the glyph that come to be written are finite. -/
structure FiniteWritten (g : Glif PD D) : Prop where
  anchors : ∀ a ∈ g.anchors, IsFinite a.x ∧ IsFinite a.y
  images : ∀ i ∈ g.images, FiniteMatrix i.m
  guidelines : ∀ l ∈ g.guidelines, IsFinite l.x ∧ IsFinite l.y ∧ IsFiniteIof l.angle
  components : ∀ c ∈ g.components.vec, FiniteMatrix c.m
  points : ∀ o, g.outline = some o → ∀ c ∈ o, ∀ p ∈ fileOrder c, IsFiniteIof p.x ∧ IsFiniteIof p.y

end GP.Spec
