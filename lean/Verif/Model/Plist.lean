import Verif.Model.XmlText
import Verif.Float.Text
/-!
# Property lists

`src/glif/lib.rs` keeps the `<lib>` of a glyph as a `plist::Dictionary`; `src/glif/read.rs` 291-304 and
`src/glif/write.rs` 91-119 have it read and printed by the plist library, through text.  Elsewhere in the
model this is the parameter `PlistIO`; here is one such pair, from the XML format of property lists and
the XML text of `Model.XmlText`.

The plist library is not in the sandbox; this is the published format as that library treats it, as far
as known.  Simplified: dates and data are values of a parameter (`LeafIO`); `Uid` values, which XML
cannot say, are left out; the document type declaration in front of the printed list is left out;
integers in hexadecimal are not read; `serde` is the identity on dictionaries.
-/
open Fl Fl.Text
namespace GP.Plist

/-- `plist::Value`.  A `plist::Dictionary` is an `IndexMap`: entries in order of insertion. -/
inductive PVal (L : Type) where
  | str (s : Str)
  | int (i : Int)
  | real (x : F64)
  | bool (b : Bool)
  | leaf (x : L)
  | array (l : List (PVal L))
  | dict (l : List (Str × PVal L))

/-- `plist::Dictionary` -/
abbrev Dict (L : Type) := List (Str × PVal L)

/-- Dates and data: the tag, the text, and the value for a tag and a text. -/
structure LeafIO (L : Type) where
  tag : L → String
  print : L → Str
  parse : String → Str → Option L

variable {L : Type}

/-! ## Printing -/

/-- An element with one text in it, as the printer writes one. -/
def textElem (n : String) (s : Str) : Node := .elem n [] [.text s]

mutual
/-- A value as the printer writes it. -/
def tree (lio : LeafIO L) : PVal L → Node
  | .str s => textElem "string" s
  | .int i => textElem "integer" (showInt i)
  | .real x => textElem "real" (showFloat x)
  | .bool true => .elem "true" [] []
  | .bool false => .elem "false" [] []
  | .leaf x => textElem (lio.tag x) (lio.print x)
  | .array l => .elem "array" [] (trees lio l)
  | .dict l => .elem "dict" [] (entryTrees lio l)

def trees (lio : LeafIO L) : List (PVal L) → List Node
  | [] => []
  | v :: l => tree lio v :: trees lio l

/-- Each key in front of its value. -/
def entryTrees (lio : LeafIO L) : List (Str × PVal L) → List Node
  | [] => []
  | (k, v) :: l => textElem "key" k :: tree lio v :: entryTrees lio l
end

/-- The printed document. -/
def document (lio : LeafIO L) (d : Dict L) : Element :=
  { name := "plist", attrs := [("version", "1.0".toList)], children := [tree lio (.dict d)] }

/-! ## Reading -/

/-- What is passed over between elements. -/
def ignored : Node → Bool
  | .comment _ => true
  | .pi _ => true
  | .text s => s.all XmlText.space
  | .cdata s => s.all XmlText.space
  | .elem _ _ _ => false

/-- The text of an element that has no elements in it. -/
def chars : List Node → Option Str
  | [] => some []
  | .text s :: cs => (chars cs).map (s ++ ·)
  | .cdata s :: cs => (chars cs).map (s ++ ·)
  | .comment _ :: cs => chars cs
  | .pi _ :: cs => chars cs
  | .elem _ _ _ :: _ => none

/-- An `i64`, or else a `u64`. -/
def readInt (s : Str) : Option Int :=
  match s with
  | '-' :: r =>
    match parseNat 10 r with
    | some n => if n ≤ 2 ^ 63 then some (-(n : Int)) else none
    | none => none
  | _ => (parseUnsigned 10 (2 ^ 64) s).map Int.ofNat

/-- `IndexMap::insert`: a key that is there keeps its place and gets the new value. -/
def insertEntry (k : Str) (v : PVal L) : Dict L → Dict L
  | [] => [(k, v)]
  | (k', v') :: l => if k' = k then (k, v) :: l else (k', v') :: insertEntry k v l

/-- The dictionary of entries as they are met. -/
def gather (l : Dict L) : Dict L := l.foldl (fun d e => insertEntry e.1 e.2 d) []

/-- The text of a `<key>`. -/
def keyOf : Node → Option Str
  | .elem n _ cs => if n = "key" then chars cs else none
  | _ => none

mutual
/-- A value. -/
def value (lio : LeafIO L) : Node → Option (PVal L)
  | .elem n _ cs =>
    if n = "string" then (chars cs).map .str
    else if n = "integer" then ((chars cs).bind readInt).map .int
    else if n = "real" then ((chars cs).bind (parseFloat b64)).map .real
    else if n = "true" then if cs.all ignored then some (.bool true) else none
    else if n = "false" then if cs.all ignored then some (.bool false) else none
    else if n = "array" then (values lio cs).map .array
    else if n = "dict" then (entries lio none cs).map fun l => .dict (gather l)
    else if n = "date" ∨ n = "data" then ((chars cs).bind (lio.parse n)).map .leaf
    else none
  | _ => none

def values (lio : LeafIO L) : List Node → Option (List (PVal L))
  | [] => some []
  | c :: cs => if ignored c then values lio cs else do
    let v ← value lio c
    let l ← values lio cs
    some (v :: l)

/-- Keys and values by turns; the key is the one that waits for its value. -/
def entries (lio : LeafIO L) : Option Str → List Node → Option (Dict L)
  | none, [] => some []
  | some _, [] => none
  | none, c :: cs => if ignored c then entries lio none cs else do
    let k ← keyOf c
    entries lio (some k) cs
  | some k, c :: cs => if ignored c then entries lio (some k) cs else do
    let v ← value lio c
    let l ← entries lio none cs
    some ((k, v) :: l)
end

/-- A document that holds one dictionary. -/
def ofDocument (lio : LeafIO L) (e : Element) : Option (Dict L) :=
  match values lio e.children with
  | some [.dict d] => some d
  | _ => none

/-! ## As the glyph code uses them -/

/-- No white space put in: `Element::write` without a configuration, src/glif/read.rs 294. -/
def plain : XmlText.Layout := { before := fun _ _ => [], close := fun _ _ => [] }

/-- * `toXml`: `plist::to_writer_xml` into a buffer, and `Element::parse` of it, src/glif/write.rs 94.
* `fromXml`: `Element::write` into a buffer, and `plist::from_bytes` of it, src/glif/read.rs 294. -/
def io (lio : LeafIO L) (lay : XmlText.Layout) : PlistIO (Dict L) where
  toXml d := XmlText.parse (XmlText.print lay (document lio d))
  fromXml e := some ((XmlText.parse (XmlText.print plain e)).bind (ofDocument lio))

end GP.Plist
