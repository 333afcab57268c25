import Verif.Model.XmlText
import Verif.Spec.Files
/-!
# What XML can say
-/
open Fl
namespace GP.Spec
variable {PD D : Type}

/-- A character of an XML document (XML 1.0, production 2); a `Char` is no surrogate. -/
def XmlChar (c : Char) : Prop :=
  c.toNat = 0x9 ∨ c.toNat = 0xA ∨ c.toNat = 0xD ∨ (0x20 ≤ c.toNat ∧ c.toNat ≠ 0xFFFE ∧ c.toNat ≠ 0xFFFF)

/-- A text that can be the value of an attribute: a tab would come back as a space. -/
def AttrText (s : Str) : Prop := ∀ c ∈ s, XmlChar c ∧ c ≠ '\t'

/-- A text that can be between tags, in comments or character data: a carriage return would come back
as a line feed. -/
def PlainText (s : Str) : Prop := ∀ c ∈ s, XmlChar c ∧ c ≠ '\r'

/-- Only white space, or nothing. -/
def Blank (s : Str) : Prop := ∀ c ∈ s, c = ' ' ∨ c = '\t' ∨ c = '\n' ∨ c = '\r'

instance (s : Str) : Decidable (PlainText s) := by unfold PlainText XmlChar; infer_instance
instance (s : Str) : Decidable (Blank s) := by unfold Blank; infer_instance

/-- Letters and digits of ASCII, a few signs, and all that is beyond ASCII. -/
def NameChar (c : Char) : Prop :=
  ('a' ≤ c ∧ c ≤ 'z') ∨ ('A' ≤ c ∧ c ≤ 'Z') ∨ ('0' ≤ c ∧ c ≤ '9') ∨ c ∈ ['-', '_', '.', ':'] ∨ (128 ≤ c.toNat ∧ XmlChar c)

/-- A name of an element or an attribute. -/
def XmlName (n : String) : Prop := n.toList ≠ [] ∧ ∀ c ∈ n.toList, NameChar c

/-- Attributes with names of their own. -/
def XmlAttrs (as : List (String × Str)) : Prop :=
  (as.map (·.1)).Nodup ∧ ∀ a ∈ as, XmlName a.1 ∧ AttrText a.2

/-- No text stands next to a text. -/
def Apart (cs : List Node) : Prop := ∀ i s t, cs[i]? = some (.text s) → cs[i + 1]? ≠ some (.text t)

/-- What an XML document can say. -/
inductive Sayable : Node → Prop
  | elem (n as cs) (hn : XmlName n) (ha : XmlAttrs as) (hc : ∀ c ∈ cs, Sayable c) (hs : Apart cs) : Sayable (.elem n as cs)
  | text (s) (h : PlainText s) (hb : ¬ Blank s) : Sayable (.text s)
  | cdata (s) (h : PlainText s) (he : ¬ "]]>".toList <:+: s) : Sayable (.cdata s)
  | comment (s) (h : PlainText s) (he : ¬ "--".toList <:+: s ++ ['-']) : Sayable (.comment s)
  | pi (s) (h : PlainText s) (he : ¬ "?>".toList <:+: s) : Sayable (.pi s)

/-- A node and what a reader hears: text that is only white space is not heard. -/
inductive Heard : Node → Node → Prop
  | elem (n as) (ps : List (Node × Node)) (hn : XmlName n) (ha : XmlAttrs as) (hc : ∀ p ∈ ps, Heard p.1 p.2) (hs : Apart (ps.map (·.1))) :
      Heard (.elem n as (ps.map (·.1))) (.elem n as (ps.map (·.2)))
  | blank (n as s) (hn : XmlName n) (ha : XmlAttrs as) (h : PlainText s) (hb : Blank s) :
      Heard (.elem n as [.text s]) (.elem n as [])
  | same (c) (h : Sayable c) : Heard c c

/-- Layouts put in nothing but spaces, tabs and line feeds, and nothing after text. -/
def Lays (lay : XmlText.Layout) : Prop :=
  ∀ d cs, (∀ c ∈ lay.before d cs ++ lay.close d cs, c = ' ' ∨ c = '\t' ∨ c = '\n') ∧
    ∀ s, cs.getLast? = some (.text s) → lay.before d cs = [] ∧ lay.close d cs = []

/-- Names, identifiers and file names of a glyph can be attributes, and its note and lib can be said in
XML. -/
structure SayableTexts (pio : PlistIO D) (g : Glif PD D) : Prop where
  name : AttrText g.name
  anchors : ∀ a ∈ g.anchors, ∀ s, a.cls = some s → AttrText s
  points : ∀ o, g.outline = some o → ∀ c ∈ o, ∀ p ∈ c, ∀ s, p.name = some s → AttrText s
  components : ∀ c ∈ g.components.vec, AttrText c.base ∧ ∀ s, c.identifier = some s → AttrText s
  images : ∀ i ∈ g.images, AttrText i.filename ∧ ∀ s, i.identifier = some s → AttrText s
  guidelines : ∀ l ∈ g.guidelines, (∀ s, l.name = some s → AttrText s) ∧ ∀ s, l.identifier = some s → AttrText s
  note : ∀ n, g.note = some n → PlainText n
  plist : ∀ d, g.lib = .plist d → ∀ e, pio.toXml d = some e → (∀ c ∈ e.children, Sayable c) ∧ Apart e.children
  xml : ∀ e, g.lib = .xml e → (∀ c ∈ e.children, Sayable c) ∧ Apart e.children

/-- The character is in a text of a glyph: in its name, its note, the name of a point that is on the curve,
the class of an anchor, or the names, identifiers and file names of the rest. -/
inductive HasChar (c : Char) (g : Glif PD D) : Prop
  | name (h : c ∈ g.name)
  | note (n) (hn : g.note = some n) (h : c ∈ n)
  | point (o k p s) (ho : g.outline = some o) (hk : k ∈ o) (hp : p ∈ k) (hc : p.ptype ≠ .offcurve) (hs : p.name = some s) (h : c ∈ s)
  | anchor (a s) (ha : a ∈ g.anchors) (hs : a.cls = some s) (h : c ∈ s)
  | component (k) (hk : k ∈ g.components.vec) (h : c ∈ k.base ∨ ∃ s, k.identifier = some s ∧ c ∈ s)
  | image (i) (hi : i ∈ g.images) (h : c ∈ i.filename ∨ ∃ s, i.identifier = some s ∧ c ∈ s)
  | guideline (l s) (hl : l ∈ g.guidelines) (hs : l.name = some s ∨ l.identifier = some s) (h : c ∈ s)

/-- The glyph without its note if that is only white space. -/
def heard (g : Glif PD D) : Glif PD D :=
  { g with note := g.note.bind fun n => if Blank n then none else some n }

end GP.Spec
