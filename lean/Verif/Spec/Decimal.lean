import Verif.Spec.Text
import Verif.Float.Nearest
/-! Specification: texts of numbers and what they denote, for C79. -/
open Fl
namespace GP.Spec

/-- A sign, minus or plus or none, and what follows it. -/
def SignedText (s : Str) (neg : Bool) (body : Str) : Prop :=
  (s = '-' :: body ∧ neg = true) ∨ (s = '+' :: body ∧ neg = false) ∨ (s = body ∧ neg = false)

/-- Digits with at most one point among, before or after them: the number they form without the point, and
how many digits are behind it. -/
def Mantissa (s : Str) (m fl : Nat) : Prop :=
  ∃ a b, (s = a ++ '.' :: b ∨ s = a ∧ b = []) ∧ Numeral 10 (a ++ b) m ∧ fl = b.length

/-- The exponent part, which may be missing. -/
def Exponent (s : Str) (e : Int) : Prop :=
  (s = [] ∧ e = 0) ∨ ∃ c r neg body n, s = c :: r ∧ (c = 'e' ∨ c = 'E') ∧ SignedText r neg body ∧ Numeral 10 body n ∧
    e = if neg then -(n : Int) else n

/-- A decimal number without sign: `m * 10^x`. -/
def Decimal (s : Str) (m : Nat) (x : Int) : Prop :=
  ∃ a b fl e, s = a ++ b ∧ Mantissa a m fl ∧ Exponent b e ∧ x = e - fl

/-- `w` in any mixture of cases. -/
def Word (s : Str) (w : String) : Prop := s.map Char.toLower = w.toList

/-- The text of an integer. -/
def IntText (s : Str) (i : Int) : Prop :=
  ∃ neg body n, SignedText s neg body ∧ Numeral 10 body n ∧ i = if neg then -(n : Int) else n

/-- The text of a float: a decimal number, which denotes the nearest float, or a word. -/
def FloatText (f : Fmt) (s : Str) (x : Flt f) : Prop :=
  ∃ neg body, SignedText s neg body ∧
    ((∃ m e k h, Decimal body m e ∧ x = .num neg k h ∧ Nearest f (m * 10 ^ e.toNat) (10 ^ (-e).toNat) k) ∨
     (Word body "nan" ∧ x = .nan) ∨
     ((Word body "inf" ∨ Word body "infinity") ∧ x = .infinity neg))

/-- The text of some number. -/
def IsNumber (s : Str) : Prop := ∃ x : F32, FloatText b32 s x

/-- Exactly four comma separated fields. -/
def OnlyFour (s a b c d : Str) : Prop :=
  ',' ∉ a ∧ ',' ∉ b ∧ ',' ∉ c ∧ ',' ∉ d ∧ s = a ++ ',' :: b ++ ',' :: c ++ ',' :: d

/-- Exactly four comma separated numbers, each with white space around it allowed. -/
def FourNumbers (s : Str) : Prop :=
  ∃ a b c d, OnlyFour s a b c d ∧ ∀ x ∈ [a, b, c, d], ∃ pre core post, x = pre ++ core ++ post ∧
    (∀ w ∈ pre ++ post, w.isWhitespace = true) ∧ IsNumber core

end GP.Spec
