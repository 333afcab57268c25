import Verif.Spec.File
import Verif.Spec.Strings
/-!
# What a document says of a glyph, for C85–C87

Written from the UFO description of `.glif` files: the value of every attribute by the grammar of
numbers, and the handles of a point by the off-curve points before and after it.
-/
open Fl
namespace GP.Spec
variable {PD D : Type}

/-! ## Attributes -/

/-- The number that a text denotes: an integer if it is the text of one that fits in 32 bits, else the nearest float. -/
def NumberText (s : Str) (x : IOF) : Prop :=
  (∃ i h, x = .int i h ∧ IntText s i) ∨
  ((¬ ∃ i, IntText s i ∧ -(2 ^ 31) ≤ i ∧ i < 2 ^ 31) ∧ ∃ f : F32, x = .float f ∧ FloatText b32 s f)

/-- The attribute is there and denotes `x`. -/
def AttrNumber (e : Element) (k : String) (x : IOF) : Prop := ∃ s, e.get k = some s ∧ NumberText s x

/-- The attribute denotes `x`, or is missing and `x` is the value for that case. -/
def AttrNumberOr (e : Element) (k : String) (d x : IOF) : Prop :=
  AttrNumber e k x ∨ (e.get k = none ∧ x = d)

/-- The transformation; without attributes it is the identity, with `one` for 1 (an integer in images, a
float in components). -/
def MatrixSays (one : IOF) (e : Element) (m : Mat6) : Prop :=
  AttrNumberOr e "xScale" one m.xScale ∧
  AttrNumberOr e "xyScale" (.int 0) m.xyScale ∧
  AttrNumberOr e "yxScale" (.int 0) m.yxScale ∧
  AttrNumberOr e "yScale" one m.yScale ∧
  AttrNumberOr e "xOffset" (.int 0) m.xOffset ∧
  AttrNumberOr e "yOffset" (.int 0) m.yOffset

/-- The colour, if there is one. -/
def ColorSays (e : Element) (c : Option Color) : Prop :=
  (e.get "color" = none ∧ c = none) ∨
  ∃ s col r g b a, e.get "color" = some s ∧ c = some col ∧ FourFields s r g b a ∧
    NumberText r col.r ∧ NumberText g col.g ∧ NumberText b col.b ∧ NumberText a col.a

/-! ## Elements -/

/-- The width that a text denotes. -/
def WidthSays (ped : Pedantry) (w : Str) (n : Nat) : Prop :=
  (Signed 10 w n ∧ n < 2 ^ 64) ∨
  ((¬ ∃ m, Signed 10 w m ∧ m < 2 ^ 64) ∧ ¬ Strictest ped ∧
    ∃ f : F32, FloatText b32 w f ∧ f.isSubnormal = false ∧ TruncatesTo f n)

/-- `<advance>` -/
def AdvanceSays (ped : Pedantry) (e : Element) (n : Nat) : Prop := ∃ w, e.get "width" = some w ∧ WidthSays ped w n

/-- `<unicode>` -/
def UnicodeSays (e : Element) (c : Char) : Prop := ∃ h, e.get "hex" = some h ∧ Signed 16 h c.toNat

/-- A name that may be the class of an anchor. -/
def IsClass (n : Str) : Prop := n ≠ [] ∧ ∀ c ∈ n, ¬ Control c

/-- A coordinate of an anchor: rounded for font files. -/
def AnchorCoord (ped : Pedantry) (x : IOF) (y : F32) : Prop :=
  (OfFontFile ped ∧ RoundsTo x.toF32 y) ∨ (¬ OfFontFile ped ∧ y = x.toF32)

/-- `<anchor>` -/
def AnchorSays (ped : Pedantry) (e : Element) (a : Anchor) : Prop :=
  (∃ x y, AttrNumber e "x" x ∧ AttrNumber e "y" y ∧ AnchorCoord ped x a.x ∧ AnchorCoord ped y a.y ∧
    (ped.mend = .always ∨ ((∃ i h, x = .int i h) ∧ ∃ i h, y = .int i h))) ∧
  (∀ n, a.cls = some n ↔ e.get "name" = some n ∧ IsClass n) ∧
  (a.atype = .mark ↔ ∃ r, a.cls = some ('_' :: r))

/-- `<image>` -/
def ImageSays (e : Element) (i : GlifImage) : Prop :=
  e.get "fileName" = some i.filename ∧ MatrixSays (.int 1) e i.m ∧ i.identifier = e.get "identifier" ∧ ColorSays e i.color

/-- `<guideline>` -/
def GuidelineSays (e : Element) (g : Guideline) : Prop :=
  (∃ s, e.get "x" = some s ∧ FloatText b32 s g.x) ∧ (∃ s, e.get "y" = some s ∧ FloatText b32 s g.y) ∧
  AttrNumber e "angle" g.angle ∧ ColorSays e g.color ∧ g.name = e.get "name" ∧ g.identifier = e.get "identifier"

/-- `<component>` -/
def ComponentSays (e : Element) (c : GlifComponent) : Prop :=
  e.get "base" = some c.base ∧ MatrixSays (.float (Flt.ofInt b32 1)) e c.m ∧ c.identifier = e.get "identifier" ∧ c.filename = none

/-- `<note>`: its pieces of text, if it has any. -/
def NoteSays (e : Element) (n : Option Str) : Prop :=
  (texts e.children = [] ∧ n = none) ∨ (texts e.children ≠ [] ∧ n = some (texts e.children).flatten)

/-- `<lib>`: the dictionary that `plist` makes of it, or the element if it cannot be printed, or
nothing if it is no dictionary. -/
def LibSays (pio : PlistIO D) (e : Element) (l : Lib D) : Prop :=
  let p : Element := { name := "plist", attrs := e.attrs, children := e.children }
  (pio.fromXml p = none ∧ l = .xml p) ∨ (pio.fromXml p = some none ∧ l = .none) ∨
  ∃ d, pio.fromXml p = some (some d) ∧ l = .plist d

/-- The `<component>`s that count: those of the first `<outline>`. -/
def componentsOf (root : Element) : List Element :=
  match (named "outline" root.children).head? with
  | some o => named "component" o.children
  | none => []

/-- What the document says of the glyph, but for the contours. -/
structure Says (pio : PlistIO D) (ped : Pedantry) (root : Element) (g : Glif PD D) : Prop where
  name : root.get "name" = some g.name
  width : Option.Rel (AdvanceSays ped) (named "advance" root.children).head? g.width
  unicode : List.Forall₂ UnicodeSays (named "unicode" root.children) g.unicode
  anchors : List.Forall₂ (AnchorSays ped) (named "anchor" root.children) g.anchors
  images : List.Forall₂ ImageSays (named "image" root.children) g.images
  guidelines : List.Forall₂ GuidelineSays (named "guideline" root.children) g.guidelines
  components : List.Forall₂ ComponentSays (componentsOf root) g.components.vec
  owner : g.components.root = g.name ∧ g.components.uniques = []
  noNote : (named "note" root.children).head? = none → g.note = none
  note : ∀ e, (named "note" root.children).head? = some e → NoteSays e g.note
  noLib : (named "lib" root.children).head? = none → g.lib = .none
  lib : ∀ e, (named "lib" root.children).head? = some e → LibSays pio e g.lib
  filename : g.filename = none
  outline : g.outline = none ↔ (∀ e ∈ contoursOf root, Dropped e) ∧ componentsOf root = []

/-! ## Points -/

/-- The type of a `<point>`. -/
def TypeSays (e : Element) (t : PointType) : Prop :=
  (OfType e "move" ∧ t = .move) ∨ (OfType e "line" ∧ t = .line) ∨ (OfType e "curve" ∧ t = .curve) ∨
  (OfType e "qcurve" ∧ t = .qcurve) ∨ (IsOff e ∧ t = .offcurve)

/-- The position of a `<point>`. -/
def PlaceSays (e : Element) (x y : F32) : Prop :=
  ∃ X Y, AttrNumber e "x" X ∧ AttrNumber e "y" Y ∧ x = X.toF32 ∧ y = Y.toF32

/-- A point as the `<point>` says, but for its handles. -/
def PointSays (e : Element) (p : Point PD) : Prop :=
  PlaceSays e p.x p.y ∧ TypeSays e p.ptype ∧ p.name = e.get "name" ∧ p.data = none ∧
  (p.smooth = true ↔ e.get "smooth" = some "yes".toList ∧ ¬ IsOff e)

/-- A handle is where the off-curve point is, or there is neither. -/
def HandleSays (o : Option Element) (h : Handle) : Prop :=
  match o with
  | some e => ∃ x y, h = .at x y ∧ PlaceSays e x y
  | none => h = .colocated

/-- The points of a contour of curves: `e`, with the off-curve point `b` last before it, then segments,
each with its off-curve points and the on-curve point at its end, then the off-curve points that lead
back to the beginning. -/
inductive Curves : Option Element → Element → List (List Element × Element) → List Element → Contour PD → Prop
  | last (b : Option Element) (e : Element) (back : List Element) (p : Point PD) :
      PointSays e p → HandleSays b p.b → HandleSays back[0]? p.a → Curves b e [] back [p]
  | more (b : Option Element) (e : Element) (offs : List Element) (e' : Element) (segs : List (List Element × Element))
      (back : List Element) (p : Point PD) (c : Contour PD) :
      PointSays e p → HandleSays b p.b → HandleSays offs[0]? p.a → Curves offs[1]? e' segs back c →
      Curves b e ((offs, e') :: segs) back (p :: c)

/-- The points of the file: the first, the segments, and the way back. -/
def filePoints (e : Element) (segs : List (List Element × Element)) (back : List Element) : List Element :=
  e :: segs.flatMap (fun s => s.1 ++ [s.2]) ++ back

/-- The segments with off-curve points handed on: each on-curve point takes the first two of those that wait, and
the others wait for the next one. -/
def handedOn {α : Type} (q : List α) : List (List α × α) → List (List α × α)
  | [] => []
  | (offs, e) :: segs => (q ++ offs, e) :: handedOn ((q ++ offs).drop 2) segs

/-- The off-curve points that still wait after the last on-curve point. -/
def waiting {α : Type} (q : List α) : List (List α × α) → List α
  | [] => q
  | (offs, _) :: segs => waiting ((q ++ offs).drop 2) segs

/-- The off-curve points are off-curve and the others are not. -/
def Segmented (e : Element) (segs : List (List Element × Element)) (back : List Element) : Prop :=
  ¬ IsOff e ∧ (∀ s ∈ segs, (∀ o ∈ s.1, IsOff o) ∧ ¬ IsOff s.2) ∧ ∀ o ∈ back, IsOff o

/-- A point that is itself and has no handles. -/
def Plain (e : Element) (p : Point PD) : Prop := PointSays e p ∧ p.a = .colocated ∧ p.b = .colocated

/-- The point that two off-curve points in a row imply between them. -/
def Implied (mid : IOF → IOF → IOF) (e f : Element) (p : Point PD) : Prop :=
  ∃ x y x' y', AttrNumber e "x" x ∧ AttrNumber e "y" y ∧ AttrNumber f "x" x' ∧ AttrNumber f "y" y' ∧
    p = { x := (mid x x').toF32, y := (mid y y').toF32, ptype := .qcurve, name := f.get "name" }

/-- Off-curve points, with implied points between them. -/
inductive Offs (mid : IOF → IOF → IOF) : List Element → Contour PD → Prop
  | none : Offs mid [] []
  | one (e : Element) (p : Point PD) : Plain e p → Offs mid [e] [p]
  | more (e f : Element) (es : List Element) (p q : Point PD) (c : Contour PD) :
      Plain e p → Implied mid e f q → Offs mid (f :: es) c → Offs mid (e :: f :: es) (p :: q :: c)

/-- The segments of a quadratic contour. -/
inductive Quads (mid : IOF → IOF → IOF) : List (List Element × Element) → Contour PD → Prop
  | none : Quads mid [] []
  | more (offs : List Element) (e : Element) (segs : List (List Element × Element)) (c : Contour PD) (p : Point PD)
      (d : Contour PD) : Offs mid offs c → Plain e p → Quads mid segs d → Quads mid ((offs, e) :: segs) (c ++ p :: d)

/-- What closes a quadratic contour: the off-curve points that lead back, and a point between the last
of them and the beginning. -/
def QuadBack (mid : IOF → IOF → IOF) (first : Point PD) (back : List Element) (c : Contour PD) : Prop :=
  (back = [] ∧ c = []) ∨
  ∃ o d p x y, back.getLast? = some o ∧ Offs mid back d ∧ c = d ++ [p] ∧ AttrNumber o "x" x ∧ AttrNumber o "y" y ∧
    p = { x := (mid x (.float first.x)).toF32, y := (mid y (.float first.y)).toF32, ptype := .qclose }

end GP.Spec
