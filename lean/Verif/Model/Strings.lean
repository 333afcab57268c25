import Verif.Model.Error
/-!
# Checked strings and file names (src/string.rs, src/glif.rs, src/component.rs)
-/
namespace GP

/-- `char::is_ascii_control` -/
def isControl (c : Char) : Bool := decide (c.toNat < 32) || decide (c.toNat = 127)

/-- src/error/string.rs (`GlifStringConversionError`) -/
inductive StrErr where
  | hasControlCharacter (idx : Nat) (c : Char)
  | lenZero
  deriving DecidableEq, Repr

/-- `Itertools::find_position` over `chars()`: index (counted in chars) and the char. -/
def findPosition (f : Char → Bool) : Str → Option (Nat × Char)
  | [] => none
  | c :: s => if f c then some (0, c) else (findPosition f s).map fun (i, d) => (i + 1, d)

/-- src/string.rs 22-31.  A `GlifString` is represented by its text. -/
def glifString (s : Str) : Out StrErr Str :=
  match findPosition isControl s with
  | some (idx, c) => .err (.hasControlCharacter idx c)
  | none => .ok s

/-- src/string.rs 40-50 -/
def glifStringLenOne (s : Str) : Out StrErr Str := do
  let gs ← glifString s
  if gs.length = 0 then .err .lenZero else .ok gs

/-- Bytes of a char in UTF-8 (`char::len_utf8`). -/
def utf8Len (c : Char) : Nat :=
  if c.toNat < 0x80 then 1 else if c.toNat < 0x800 then 2 else if c.toNat < 0x10000 then 3 else 4

/-- `String::remove(idx)` where `idx` is a byte offset: removes the char starting there; `none` is
the panic when `idx` is not the start of a char of the string. -/
def removeByte : Str → Nat → Option Str
  | [], _ => none
  | _ :: s, 0 => some s
  | c :: s, n + 1 => if utf8Len c ≤ n + 1 then (removeByte s (n + 1 - utf8Len c)).map (c :: ·) else none

/-- The loop src/string.rs 57-62.  Every round removes one char, so `fuel = length` rounds are
enough; running out of fuel is reported as a panic, and C16 shows it does not happen. -/
def toGlifStringLoop : Nat → Str → Out StrErr Str
  | fuel, s =>
    match glifString s with
    | .err (.hasControlCharacter idx _) =>
      match fuel with
      | 0 => .panic
      | fuel + 1 =>
        match removeByte s idx with
        | some s' => toGlifStringLoop fuel s'
        | none => .panic
    | .ok s => .ok s
    | _ => .panic

/-- src/string.rs 56-63 -/
def toGlifString (s : Str) : Out StrErr Str := toGlifStringLoop s.length s

/-! ## File names -/

/-- `('A'..'Z').contains(&c)`: the range excludes its end. -/
def underscored (c : Char) : Bool := decide ('A'.toNat ≤ c.toNat) && decide (c.toNat < 'Z'.toNat)

/-- src/glif.rs 110-124 -/
def nameToFilename (name : Str) (appendExtension : Bool) : Str :=
  let ret := name.foldl (fun ret c => let ret := ret ++ [c]; if underscored c then ret ++ ['_'] else ret) []
  if appendExtension then ret ++ ".glif".toList else ret

/-- A path as `std::path::Path::components` sees it: whether it starts at the root, and its parts.
Simplification: Unix paths that are valid UTF-8; `.` parts and repeated slashes are not
represented (`components` skips them, but for a leading `.`). -/
structure Path where
  abs : Bool := false
  parts : List Str := []
  deriving DecidableEq, Repr

/-- Split at a separator (`str::split`). -/
def splitOn (sep : Char) : Str → List Str
  | [] => [[]]
  | c :: s =>
    if c = sep then [] :: splitOn sep s
    else
      match splitOn sep s with
      | p :: ps => (c :: p) :: ps
      | [] => [[c]]

/-- A path from its text. -/
def Path.ofStr (s : Str) : Path :=
  { abs := s.head? == some '/', parts := (splitOn '/' s).filter fun p => !p.isEmpty && p != ['.'] }

/-- `Path::file_name`: the last part, unless it is `..`. -/
def Path.fileName (p : Path) : Option Str :=
  match p.parts.getLast? with
  | some n => if n = ['.', '.'] then none else some n
  | none => none

/-- `PathBuf::push` -/
def Path.push (p q : Path) : Path := if q.abs then q else { p with parts := p.parts ++ q.parts }

/-- `PathBuf::set_file_name` -/
def Path.setFileName (p : Path) (n : Str) : Path :=
  (if p.fileName.isSome then { p with parts := p.parts.dropLast } else p).push (Path.ofStr n)

/-- src/component.rs 118-122: the file name of a component with the given base, seen from the
glyph file `gliffn`. -/
def componentFile (gliffn : Path) (base : Str) : Path := gliffn.setFileName (nameToFilename base true)

/-- src/glif.rs 80-92, for a glyph with the given name and file name. -/
def filenameIsSane (name : Str) (filename : Option Path) : R Bool :=
  match filename with
  | some gfn =>
    match gfn.fileName with
    | some n => .ok (nameToFilename name true == n)
    | none => .err .filenameInsane
  | none => .err .filenameInsane

end GP
