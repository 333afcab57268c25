import Verif.Model.Point
import Verif.Model.Strings
/-!
# Code points, pedantry, colours, anchors
(src/codepoint.rs, src/pedantry.rs, src/color.rs, src/anchor.rs, parts of src/glif/read.rs)
-/
open Fl Fl.Text
namespace GP
variable {PD : Type}

/-- src/codepoint.rs 8-12: `{:X}`. -/
def codepointDisplay (c : Char) : Str := toDigits 16 c.toNat

/-- `char::from_u32` -/
def charFromU32 (n : Nat) : Option Char :=
  if h : n.isValidChar then some (Char.ofNatAux n h) else none

/-- src/glif/read.rs 127-133 -/
def readCodepoint (hex : Str) : R Char := do
  let n ← Out.ofOption (.input "<unicode> hex not int") (parseUnsigned 16 (2 ^ 32) hex)
  Out.ofOption (.input "<unicode> char conversion failed") (charFromU32 n)

/-- src/pedantry.rs 17-25 -/
inductive Mend where
  | always | never | ufoSpecErrorsOnly | ufoSpecOutdatedOnly
  deriving DecidableEq, Repr

/-- src/pedantry.rs 27-43 -/
inductive Level where
  | glifParser | ufo | openType | trueType
  deriving DecidableEq, Repr

/-- src/pedantry.rs 5-9 (the defaults are those of the two enumerations) -/
structure Pedantry where
  level : Level := .glifParser
  mend : Mend := .always
  deriving DecidableEq, Repr

/-- src/pedantry.rs 66-68 -/
def Level.isSfnt (l : Level) : Bool := l == .openType || l == .trueType

/-- src/pedantry.rs 11-15 -/
def Pedantry.shouldMend (p : Pedantry) : Bool := !(p.level.isSfnt && p.mend == .never)

/-- src/pedantry.rs 45-55 -/
inductive FloatClass where
  | anchor | advanceWidth
  deriving DecidableEq, Repr

/-- src/pedantry.rs 57-64 -/
def Level.maybeRound (l : Level) (f : IOF) (fc : FloatClass) : F32 :=
  if l.isSfnt && fc == .anchor then f.toF32.roundInt else f.toF32

/-- src/glif/read.rs 101-116: the text of a `width` attribute. -/
def readWidth (ped : Pedantry) (width : Str) : R Nat :=
  match parseU64 width with
  | some i => .ok i
  | none =>
    match parseFloat b32 width with
    | some f =>
      if f.isSubnormal then .err (.input "<advance> width neither int nor downgradable (not subnormal) float!")
      else if !ped.shouldMend then .err (.input "Floating point value given as <advance> width — OpenType `hmtx` / `vmtx` will truncate it")
      else .ok f.toU64
    | none => .err (.input "<advance> width neither int nor downgradable (not subnormal) float!")

/-- src/color.rs 10-15 -/
structure Color where
  r : IOF
  g : IOF
  b : IOF
  a : IOF
  deriving DecidableEq, Repr

/-- src/color.rs 52-56 -/
def Color.text (c : Color) : Str :=
  c.r.text ++ ',' :: c.g.text ++ ',' :: c.b.text ++ ',' :: c.a.text

/-- src/color.rs 31-49.  The copy without white space (35-36) is not used by the code. -/
def Color.parse (s : Str) : R Color :=
  match splitOn ',' s with
  | rr :: gg :: bb :: aa :: _ => do
    let r ← Out.ofOption .colorNotRGBA (IOF.parse rr)
    let g ← Out.ofOption .colorNotRGBA (IOF.parse gg)
    let b ← Out.ofOption .colorNotRGBA (IOF.parse bb)
    let a ← Out.ofOption .colorNotRGBA (IOF.parse aa)
    .ok { r := r, g := g, b := b, a := a }
  | _ => .err .colorNotRGBA

/-- src/anchor.rs 17-23 -/
inductive AnchorType where
  | mark | base
  deriving DecidableEq, Repr

/-- src/anchor.rs 25-43 -/
def AnchorType.ofClass : Option Str → AnchorType
  | some s => if s.head? = some '_' then .mark else .base
  | none => .base

/-- src/anchor.rs 45-56.  `data` is `PD::default()` in all code modelled, so it is left out. -/
structure Anchor where
  x : F32
  y : F32
  cls : Option Str
  atype : AnchorType
  deriving DecidableEq, Repr

/-- src/anchor.rs 72-78 -/
structure GlifAnchor where
  x : IOF
  y : IOF
  cls : Option Str
  deriving DecidableEq, Repr

/-- src/anchor.rs 58-70 -/
def Anchor.fromGlif (ga : GlifAnchor) (ped : Pedantry) : R Anchor :=
  if ped.mend ≠ .always && (!ga.x.isInt || !ga.y.isInt) then .err .pedanticXmlParse
  else .ok { x := ped.level.maybeRound ga.x .anchor, y := ped.level.maybeRound ga.y .anchor,
             cls := ga.cls, atype := AnchorType.ofClass ga.cls }

/-- src/glif/read.rs 155-159: the class of an anchor from its `name` attribute. -/
def anchorClass (name : Option Str) : Option Str :=
  match name with
  | some n =>
    match glifStringLenOne n with
    | .ok s => some s
    | _ => none
  | none => none

end GP
