import Verif.Model.Point
/-! Specification: numerals, truncation, comma separated lists. -/
open Fl
namespace GP.Spec

/-- The digit denoted by a character, decimal or hexadecimal in either case. -/
def digit (c : Char) : Option Nat :=
  if '0' ≤ c ∧ c ≤ '9' then some (c.toNat - '0'.toNat)
  else if 'A' ≤ c ∧ c ≤ 'F' then some (c.toNat - 'A'.toNat + 10)
  else if 'a' ≤ c ∧ c ≤ 'f' then some (c.toNat - 'a'.toNat + 10)
  else none

/-- `s` is a non-empty string of digits in base `b` denoting `n`. -/
inductive Numeral (b : Nat) : Str → Nat → Prop
  | one (c : Char) (d : Nat) : digit c = some d → d < b → Numeral b [c] d
  | more (s : Str) (n : Nat) (c : Char) (d : Nat) : Numeral b s n → digit c = some d → d < b →
      Numeral b (s ++ [c]) (n * b + d)

/-- A numeral with an optional plus sign. -/
def Signed (b : Nat) (s : Str) (n : Nat) : Prop :=
  Numeral b s n ∨ ∃ r, s = '+' :: r ∧ Numeral b r n

/-- `n` is `x` with its fraction cut off, kept within 0 and 2^64 - 1; 0 for NaN. -/
def TruncatesTo (x : F32) (n : Nat) : Prop :=
  match x with
  | .nan => n = 0
  | .num true _ _ => n = 0
  | .num false k _ =>
    if k = b32.inf then n = 2 ^ 64 - 1
    else (n < 2 ^ 64 - 1 ∧ n * 2 ^ 149 ≤ b32.val k ∧ b32.val k < (n + 1) * 2 ^ 149) ∨
         (n = 2 ^ 64 - 1 ∧ (2 ^ 64 - 1) * 2 ^ 149 ≤ b32.val k)

/-- `s` starts with four comma separated fields `a`, `b`, `c`, `d`; whatever follows is separated by
a further comma. -/
def FourFields (s a b c d : Str) : Prop :=
  ',' ∉ a ∧ ',' ∉ b ∧ ',' ∉ c ∧ ',' ∉ d ∧
  ∃ rest, s = a ++ ',' :: b ++ ',' :: c ++ ',' :: d ++ rest ∧ (rest = [] ∨ rest.head? = some ',')

end GP.Spec
