import Verif.Model.Plist
import Verif.Spec.XmlText
/-!
# What a property list says, and what is heard
-/
open Fl
namespace GP.Spec
open Plist
variable {L : Type}

/-- Text of only white space is heard as nothing. -/
def heardText (s : Str) : Str := if Blank s then [] else s

/-- Dates and data have one of the two tags, a text that can be said, and come back from it. -/
structure LeafLaws (lio : LeafIO L) : Prop where
  tag : ∀ x, lio.tag x = "date" ∨ lio.tag x = "data"
  plain : ∀ x, PlainText (lio.print x)
  parse : ∀ x, lio.parse (lio.tag x) (heardText (lio.print x)) = some x

/-- A value that a file can hold: texts that can be said, integers of 64 bits, no key twice. -/
inductive Printable : PVal L → Prop
  | str (s) (h : PlainText s) : Printable (.str s)
  | int (i) (h : -(2 ^ 63) ≤ i) (h' : i < 2 ^ 64) : Printable (.int i)
  | real (x) : Printable (.real x)
  | bool (b) : Printable (.bool b)
  | leaf (x) : Printable (.leaf x)
  | array (l) (h : ∀ v ∈ l, Printable v) : Printable (.array l)
  | dict (l) (hn : (l.map (·.1)).Nodup) (hk : ∀ e ∈ l, PlainText e.1) (h : ∀ e ∈ l, Printable e.2) : Printable (.dict l)

/-- No string and no key, at any depth, is white space and nothing else. -/
inductive Audible : PVal L → Prop
  | str (s) (h : Blank s → s = []) : Audible (.str s)
  | int (i) : Audible (.int i)
  | real (x) : Audible (.real x)
  | bool (b) : Audible (.bool b)
  | leaf (x) : Audible (.leaf x)
  | array (l) (h : ∀ v ∈ l, Audible v) : Audible (.array l)
  | dict (l) (hk : ∀ e ∈ l, Blank e.1 → e.1 = []) (h : ∀ e ∈ l, Audible e.2) : Audible (.dict l)

/-- No two keys of a dictionary, at any depth, are heard alike. -/
inductive Distinct : PVal L → Prop
  | str (s) : Distinct (.str s)
  | int (i) : Distinct (.int i)
  | real (x) : Distinct (.real x)
  | bool (b) : Distinct (.bool b)
  | leaf (x) : Distinct (.leaf x)
  | array (l) (h : ∀ v ∈ l, Distinct v) : Distinct (.array l)
  | dict (l) (hn : (l.map fun e => heardText e.1).Nodup) (h : ∀ e ∈ l, Distinct e.2) : Distinct (.dict l)

/-- The character is in a string or a key, at some depth. -/
inductive Utters (c : Char) : PVal L → Prop
  | str (s) (h : c ∈ s) : Utters c (.str s)
  | array (l v) (hv : v ∈ l) (h : Utters c v) : Utters c (.array l)
  | key (l e) (he : e ∈ l) (h : c ∈ e.1) : Utters c (.dict l)
  | dict (l e) (he : e ∈ l) (h : Utters c e.2) : Utters c (.dict l)

mutual
/-- The value with every string and every key as it is heard. -/
def heardVal : PVal L → PVal L
  | .str s => .str (heardText s)
  | .int i => .int i
  | .real x => .real x
  | .bool b => .bool b
  | .leaf x => .leaf x
  | .array l => .array (heardVals l)
  | .dict l => .dict (heardDict l)

def heardVals : List (PVal L) → List (PVal L)
  | [] => []
  | v :: l => heardVal v :: heardVals l

def heardDict : Dict L → Dict L
  | [] => []
  | (k, v) :: l => (heardText k, heardVal v) :: heardDict l
end

/-- `d'` is what the glyph code reads back for `d`: printed and read as XML, the children put under a
bare element, and that printed and read as a property list. -/
def ComesBack (pio : PlistIO (Dict L)) (d d' : Dict L) : Prop :=
  ∃ e, pio.toXml d = some e ∧ pio.fromXml { name := "plist", attrs := [], children := e.children } = some (some d')

end GP.Spec
