import Verif.Model.Files
/-!
# Texts of XML documents

`/repo` prints and parses through the crates `xmltree` and `xml-rs` (src/glif/write.rs 32-39,
src/glif/read.rs 75), whose source is not in the sandbox.  Here is a printer and a parser as the XML 1.0
recommendation has them, with what is known of the two crates: how characters are escaped, that an
element without children closes itself, that nothing is put beside text, that white space between
elements is no text, and that text which is only white space is dropped.  `/repo` asks for indented
text (src/glif/write.rs 33); how it is indented is left open (`Layout`).

Simplified: no name spaces, no document type declarations, names are of letters, digits, `-`, `_`, `.`,
`:` and any character beyond ASCII, and the XML declaration is not looked into.
-/
open Fl Fl.Text
namespace GP
namespace XmlText

/-- White space in XML. -/
def space (c : Char) : Bool := c == ' ' || c == '\t' || c == '\n' || c == '\r'

/-- A character of a document. -/
def allowed (c : Char) : Bool :=
  c == '\t' || c == '\n' || c == '\r' || (decide (0x20 ≤ c.toNat) && c.toNat != 0xFFFE && c.toNat != 0xFFFF)

/-- A character of a name. -/
def nameChar (c : Char) : Bool :=
  c.isAlphanum || c == '-' || c == '_' || c == '.' || c == ':' || (decide (0x80 ≤ c.toNat) && allowed c)

/-! ## Printing -/

/-- How a character is written in the value of an attribute. -/
def escAttr (c : Char) : Str :=
  if c = '<' then "&lt;".toList
  else if c = '>' then "&gt;".toList
  else if c = '"' then "&quot;".toList
  else if c = '\'' then "&apos;".toList
  else if c = '&' then "&amp;".toList
  else if c = '\n' then "&#xA;".toList
  else if c = '\r' then "&#xD;".toList
  else [c]

/-- How a character is written in text. -/
def escText (c : Char) : Str :=
  if c = '<' then "&lt;".toList
  else if c = '>' then "&gt;".toList
  else if c = '&' then "&amp;".toList
  else [c]

/-- One attribute. -/
def printAttr (a : String × Str) : Str := ' ' :: a.1.toList ++ '=' :: '"' :: a.2.flatMap escAttr ++ ['"']

/-- What is put before a child that is an element, a comment or an instruction, and before the end of
an element: it depends on the depth and on the children before. -/
structure Layout where
  before : Nat → List Node → Str
  close : Nat → List Node → Str

/-- Text and character data. -/
def Node.isChars : Node → Bool
  | .text _ => true
  | .cdata _ => true
  | _ => false

/-- The layout of `xml-rs`: two spaces for each level, on a new line, until there has been text. -/
def Layout.indented : Layout where
  before d done := if done.any Node.isChars then [] else '\n' :: List.replicate (2 * d) ' '
  close d done := if done.any Node.isChars then [] else '\n' :: List.replicate (2 * d) ' '

mutual
/-- A node as text. -/
def printNode (lay : Layout) (d : Nat) : Node → Str
  | .elem n as cs =>
    '<' :: n.toList ++ as.flatMap printAttr ++
      (if cs.isEmpty then "/>".toList
        else '>' :: printNodes lay (d + 1) [] cs ++ lay.close d cs ++ '<' :: '/' :: n.toList ++ ['>'])
  | .text s => s.flatMap escText
  | .cdata s => "<![CDATA[".toList ++ s ++ "]]>".toList
  | .comment s => "<!--".toList ++ s ++ "-->".toList
  | .pi s => "<?".toList ++ s ++ "?>".toList
/-- The children of an element as text; `done` are those before. -/
def printNodes (lay : Layout) (d : Nat) (done : List Node) : List Node → Str
  | [] => []
  | c :: cs =>
    (if Node.isChars c then [] else lay.before d done) ++ printNode lay d c ++ printNodes lay d (done ++ [c]) cs
end

/-- The XML declaration. -/
def declaration : Str := "<?".toList ++ "xml version=\"1.0\" encoding=\"UTF-8\"".toList ++ "?>".toList

/-- A document. -/
def print (lay : Layout) (e : Element) : Str := declaration ++ '\n' :: printNode lay 0 e.node

/-! ## Parsing -/

/-- The ends of lines become line feeds. -/
def lines : Str → Str
  | [] => []
  | '\r' :: '\n' :: s => '\n' :: lines s
  | '\r' :: s => '\n' :: lines s
  | c :: s => c :: lines s

/-- What is before and after the first place where the pattern is. -/
def cutAt (pat : Str) : Str → Option (Str × Str)
  | [] => if pat.isPrefixOf [] then some ([], []) else none
  | c :: s =>
    if pat.isPrefixOf (c :: s) then some ([], (c :: s).drop pat.length)
    else (cutAt pat s).map fun r => (c :: r.1, r.2)

/-- The character that `&name;` stands for. -/
def entity : Str → Option Char
  | ['l', 't'] => some '<'
  | ['g', 't'] => some '>'
  | ['a', 'm', 'p'] => some '&'
  | ['q', 'u', 'o', 't'] => some '"'
  | ['a', 'p', 'o', 's'] => some '\''
  | '#' :: 'x' :: ds => (parseNat 16 ds).bind fun n => (charFromU32 n).filter allowed
  | '#' :: ds => (parseNat 10 ds).bind fun n => (charFromU32 n).filter allowed
  | _ => none

/-- References are replaced by the characters they stand for; `one` says what becomes of the others,
`ref` is what has been read of a reference. -/
def decode (one : Char → Option Char) : (ref : Option Str) → Str → Option Str
  | none, [] => some []
  | some _, [] => none
  | none, c :: s =>
    if c = '&' then decode one (some []) s
    else do
      let c' ← one c
      let s' ← decode one none s
      some (c' :: s')
  | some r, c :: s =>
    if c = ';' then do
      let c' ← entity r
      let s' ← decode one none s
      some (c' :: s')
    else decode one (some (r ++ [c])) s

/-- A character in the value of an attribute: white space becomes a space. -/
def oneAttr (c : Char) : Option Char :=
  if c = '<' then none else if space c then some ' ' else if allowed c then some c else none

/-- A character in text. -/
def oneText (c : Char) : Option Char := if c = '<' then none else if allowed c then some c else none

/-- A name at the beginning of a text, and what follows it. -/
def name (s : Str) : Option (Str × Str) :=
  let n := s.takeWhile nameChar
  if n.isEmpty then none else some (n, s.dropWhile nameChar)

/-- The value of an attribute at the beginning of a text, and what follows it. -/
def value (s : Str) : Option (Str × Str) :=
  match s with
  | '"' :: r => do
    let (v, r) ← cutAt ['"'] r
    some (← decode oneAttr none v, r)
  | '\'' :: r => do
    let (v, r) ← cutAt ['\''] r
    some (← decode oneAttr none v, r)
  | _ => none

/-- The attributes at the beginning of a text up to the end of the tag, whether it ends with `/>`, and
what follows it.  No name may occur twice. -/
def attrs : Nat → List (String × Str) → Str → Option (List (String × Str) × Bool × Str)
  | 0, _, _ => none
  | fuel + 1, got, s =>
    match s.dropWhile space with
    | '>' :: r => some (got, false, r)
    | '/' :: '>' :: r => some (got, true, r)
    | _ =>
      if (s.takeWhile space).isEmpty then none
      else do
        let (k, r) ← name (s.dropWhile space)
        match r.dropWhile space with
        | '=' :: r =>
          let (v, r) ← value (r.dropWhile space)
          if got.any (·.1 == String.ofList k) then none else attrs fuel (got ++ [(String.ofList k, v)]) r
        | _ => none

/-- What stands at one place of a document. -/
inductive Tok where
  | start (name : String) (attrs : List (String × Str)) (empty : Bool)
  | stop (name : String)
  | node (n : Node)

/-- What stands at the beginning of a text, and what follows it. -/
def next (s : Str) : Option (Tok × Str) :=
  match s with
  | [] => none
  | '<' :: '!' :: '-' :: '-' :: r => do
    let (c, r) ← cutAt ['-', '-'] r
    match r with
    | '>' :: r => if c.all allowed then some (.node (.comment c), r) else none
    | _ => none
  | '<' :: '!' :: '[' :: 'C' :: 'D' :: 'A' :: 'T' :: 'A' :: '[' :: r => do
    let (c, r) ← cutAt [']', ']', '>'] r
    if c.all allowed then some (.node (.cdata c), r) else none
  | '<' :: '?' :: r => do
    let (c, r) ← cutAt ['?', '>'] r
    if c.all allowed then some (.node (.pi c), r) else none
  | '<' :: '/' :: r => do
    let (n, r) ← name r
    match r.dropWhile space with
    | '>' :: r => some (.stop (String.ofList n), r)
    | _ => none
  | '<' :: r => do
    let (n, r) ← name r
    let (as, e, r) ← attrs (r.length + 1) [] r
    some (.start (String.ofList n) as e, r)
  | c :: r => do
    let t ← decode oneText none ((c :: r).takeWhile (· != '<'))
    some (.node (.text t), (c :: r).dropWhile (· != '<'))

/-- An element of which only the beginning has been read. -/
structure Frame where
  name : String
  attrs : List (String × Str)
  children : List Node

/-- A further child. -/
def Frame.push (f : Frame) (n : Node) : Frame := { f with children := f.children ++ [n] }

/-- A node that is kept among the children of an element. -/
def kept : Node → Bool
  | .text s => !s.all space
  | _ => true

/-- The root element from what is left of a text, and what follows it.  `st` are the elements around
this place, the innermost first; outside the root there is only white space, comments and
instructions. -/
def root (st : List Frame) (s : Str) : Option (Element × Str) :=
  match next s with
  | none => none
  | some (t, r) =>
    if r.length < s.length then
      match t, st with
      | .start n as true, [] => some (⟨n, as, []⟩, r)
      | .start n as true, f :: st => root (f.push (.elem n as []) :: st) r
      | .start n as false, st => root (⟨n, as, []⟩ :: st) r
      | .stop _, [] => none
      | .stop n, [f] => if n = f.name then some (⟨f.name, f.attrs, f.children⟩, r) else none
      | .stop n, f :: g :: st =>
        if n = f.name then root (g.push (.elem f.name f.attrs f.children) :: st) r else none
      | .node c, [] => if Node.isChars c && kept c then none else root [] r
      | .node c, f :: st => if kept c then root (f.push c :: st) r else root (f :: st) r
    else none
termination_by s.length

/-- Only white space, comments and instructions. -/
def nothing (s : Str) : Bool :=
  if s = [] then true
  else
    match next s with
    | some (.node c, r) => if r.length < s.length then !(Node.isChars c && kept c) && nothing r else false
    | _ => false
termination_by s.length

/-- A document. -/
def parse (s : Str) : Option Element := do
  let (e, r) ← root [] (lines s)
  if nothing r then some e else none

/-- Printing and parsing together. -/
def io (lay : Layout) : XmlIO := { print := fun e => some (print lay e), parse := parse }

end XmlText
end GP
