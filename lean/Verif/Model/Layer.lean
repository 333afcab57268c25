import Verif.Model.Mfek
/-!
# Layers as property lists (src/glif/mfek/layer.rs)
-/
open Fl
namespace GP

variable {PD : Type}

/-- `plist::Value`, as far as this file looks into it: arrays, strings, dictionaries and anything else
(numbers, dates, ...), of type `V`. -/
inductive PValue (V : Type) where
  | array (l : List (PValue V))
  | str (s : Str)
  | dict (l : List (Str × PValue V))
  | other (v : V)

variable {V : Type}

/-- src/glif/mfek/layer.rs 26-32 -/
def Layer.toGlyphsDir (l : Layer PD) (idx : Nat) : Str :=
  if idx = 0 then "glyphs".toList else "glyphs.".toList ++ nameToFilename l.name false

/-- src/glif/mfek/layer.rs 57-69 -/
def Layer.toLayerinfo (l : Layer PD) : Option (PValue V) :=
  match l.color with
  | some c => some (.dict [("color".toList, .str c.text)])
  | none => none

/-- src/glif/mfek/layer.rs 78-82 -/
def Layer.key (l : Layer PD) : Str := if l.name = layerZero then "public.default".toList else l.name

/-- src/glif/mfek/layer.rs 72-88: the pairs of key and directory, from index `i` on. -/
def layerEntries : Nat → List (Layer PD) → List (Str × Str)
  | _, [] => []
  | i, l :: ls => if l.visible then (l.key, l.toGlyphsDir i) :: layerEntries (i + 1) ls else layerEntries (i + 1) ls

/-- `plist::Value::Array(vec![plist::Value::String(key), plist::Value::String(value)])` -/
def entryValue (e : Str × Str) : PValue V := .array [.str e.1, .str e.2]

/-- src/glif/mfek/layer.rs 72-88 -/
def toLayercontents (ls : List (Layer PD)) : PValue V := .array ((layerEntries 0 ls).map entryValue)

/-- The derived `==` of `plist::Value` against an entry of `toLayercontents`. -/
def PValue.isEntry (v : PValue V) (e : Str × Str) : Bool :=
  match v with
  | .array [.str k, .str d] => k == e.1 && d == e.2
  | _ => false

/-- src/glif/mfek/layer.rs 93-97 -/
def mergeLoop : List (Str × Str) → List (PValue V) → List (PValue V)
  | [], theirs => theirs
  | e :: es, theirs => if theirs.any (·.isEntry e) then mergeLoop es theirs else mergeLoop es (theirs ++ [entryValue e])

/-- src/glif/mfek/layer.rs 89-99.  `other.into_array().unwrap()` panics if `other` is not an array. -/
def mergeLayercontents (ls : List (Layer PD)) (other : PValue V) : Out MfekErr (PValue V) :=
  match other with
  | .array theirs => .ok (.array (mergeLoop (layerEntries 0 ls) theirs))
  | _ => .panic

end GP
