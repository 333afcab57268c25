import Verif.Spec.XmlText
import Verif.Spec.Text
/-!
# How a document may be spelled

After XML 1.0: a document can be written with any white space in and between tags, with either quotation mark, with
characters or references to them, with any ends of lines, and with comments and instructions around it.  (Where white space means nothing, a reference to white space is taken for it, which is more than XML
allows around the root.)
-/
open Fl
namespace GP.Spec

/-- White space, the ends of lines being line feeds. -/
def White (w : Str) : Prop := ∀ c ∈ w, c = ' ' ∨ c = '\t' ∨ c = '\n'

instance (w : Str) : Decidable (White w) := by unfold White; infer_instance

/-- The text refers to the character. -/
inductive CharRef : Char → Str → Prop
  | lt : CharRef '<' "&lt;".toList
  | gt : CharRef '>' "&gt;".toList
  | amp : CharRef '&' "&amp;".toList
  | quot : CharRef '"' "&quot;".toList
  | apos : CharRef '\'' "&apos;".toList
  | dec {c : Char} {ds} : Numeral 10 ds c.toNat → XmlChar c → CharRef c ("&#".toList ++ ds ++ [';'])
  | hex {c : Char} {ds} : Numeral 16 ds c.toNat → XmlChar c → CharRef c ("&#x".toList ++ ds ++ [';'])

/-- A text is spelled one character after the other, each with a reference or with a character that stands for it. -/
inductive SpellsText (stands : Char → Char → Prop) : Str → Str → Prop
  | nil : SpellsText stands [] []
  | char {c d v s} : stands c d → SpellsText stands v s → SpellsText stands (c :: v) (d :: s)
  | ref {c r v s} : CharRef c r → SpellsText stands v s → SpellsText stands (c :: v) (r ++ s)

/-- Between the quotation marks `q` the characters stand for themselves, and white space stands for a space. -/
def InQuotes (q c d : Char) : Prop :=
  XmlChar d ∧ d ≠ '<' ∧ d ≠ '&' ∧ d ≠ '\r' ∧ d ≠ q ∧ ((d = '\t' ∨ d = '\n') ∧ c = ' ' ∨ d ≠ '\t' ∧ d ≠ '\n' ∧ c = d)

instance (q c d : Char) : Decidable (InQuotes q c d) := by unfold InQuotes XmlChar; infer_instance

/-- Between tags the characters stand for themselves. -/
def InText (c d : Char) : Prop := XmlChar d ∧ d ≠ '<' ∧ d ≠ '&' ∧ d ≠ '\r' ∧ c = d

/-- What means nothing between tags: white space, in characters or references. -/
def Gap (s : Str) : Prop := ∃ v, Blank v ∧ SpellsText InText v s

/-- An attribute with the white space before it. -/
inductive SpellsAttr : String × Str → Str → Prop
  | mk {k v w w1 w2 q s} : XmlName k → w ≠ [] → White w → White w1 → White w2 → q = '"' ∨ q = '\'' → SpellsText (InQuotes q) v s →
      SpellsAttr (k, v) (w ++ k.toList ++ w1 ++ '=' :: w2 ++ q :: s ++ [q])

/-- Attributes one after the other, and the white space before the end of the tag. -/
inductive SpellsAttrs : List (String × Str) → Str → Prop
  | nil {w} : White w → SpellsAttrs [] w
  | cons {a as s t} : SpellsAttr a s → SpellsAttrs as t → SpellsAttrs (a :: as) (s ++ t)

/-- Text, but not character data. -/
def IsText : Node → Prop
  | .text _ => True
  | _ => False

/-- Nodes one after the other, with white space between them, but no white space and no other text beside text; `b` says
whether the node before is text. -/
inductive Joined : Prop → List (Node × Str) → Str → Prop
  | nil {b w} : Gap w → (b → w = []) → Joined b [] w
  | cons {b w c s ps r} : Gap w → (b ∨ IsText c → w = []) → ¬ (b ∧ IsText c) → Joined (IsText c) ps r →
      Joined b ((c, s) :: ps) (w ++ s ++ r)

/-- A node is spelled so. -/
inductive Spells : Node → Str → Prop
  | elem {n as sa w b} {ps : List (Node × Str)} : XmlName n → (as.map (·.1)).Nodup → SpellsAttrs as sa → (∀ p ∈ ps, Spells p.1 p.2) →
      Joined False ps b → White w → Spells (.elem n as (ps.map (·.1))) ('<' :: n.toList ++ sa ++ '>' :: b ++ '<' :: '/' :: n.toList ++ w ++ ['>'])
  | empty {n as sa} : XmlName n → (as.map (·.1)).Nodup → SpellsAttrs as sa → Spells (.elem n as []) ('<' :: n.toList ++ sa ++ ['/', '>'])
  | text {v s} : SpellsText InText v s → ¬ Blank v → Spells (.text v) s
  | cdata {s} : PlainText s → ¬ "]]>".toList <:+: s → Spells (.cdata s) ("<![CDATA[".toList ++ s ++ "]]>".toList)
  | comment {s} : PlainText s → ¬ "--".toList <:+: s ++ ['-'] → Spells (.comment s) ("<!--".toList ++ s ++ "-->".toList)
  | pi {s} : PlainText s → ¬ "?>".toList <:+: s → Spells (.pi s) ("<?".toList ++ s ++ "?>".toList)

/-- What may stand before and after the root of a document: white space, comments, instructions, and the declaration. -/
inductive Around : Str → Prop
  | gap {w} : Gap w → Around w
  | comment {w s r} : Gap w → PlainText s → ¬ "--".toList <:+: s ++ ['-'] → Around r → Around (w ++ ("<!--".toList ++ s ++ "-->".toList) ++ r)
  | pi {w s r} : Gap w → PlainText s → ¬ "?>".toList <:+: s → Around r → Around (w ++ ("<?".toList ++ s ++ "?>".toList) ++ r)

/-- The first text has line feeds where the second has any ends of lines. -/
inductive LineEnds : Str → Str → Prop
  | nil : LineEnds [] []
  | char {c s t} : c ≠ '\r' → LineEnds s t → LineEnds (c :: s) (c :: t)
  | crlf {s t} : LineEnds s t → LineEnds ('\n' :: s) ('\r' :: '\n' :: t)
  | cr {s t} : t.head? ≠ some '\n' → LineEnds s t → LineEnds ('\n' :: s) ('\r' :: t)

/-- The text is a spelling of the document. -/
def SpellsDoc (e : Element) (t : Str) : Prop :=
  ∃ a s b, Around a ∧ Spells e.node s ∧ Around b ∧ LineEnds (a ++ s ++ b) t

end GP.Spec
