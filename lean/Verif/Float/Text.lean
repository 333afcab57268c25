import Verif.Basic
import Verif.Float.Core
/-!
# Decimal text of integers and floats

Models the Rust standard library functions that `/repo` calls on numbers and text:
`u64::to_string`, `str::parse::<u64>`, `str::parse::<i32>`, `u32::from_str_radix(_, 16)`,
`f32::to_string` (`Display`), `str::parse::<f32>`.
-/
namespace Fl
namespace Text

/-- Digit character of a number below 16, upper case. -/
def digitChar (n : Nat) : Char :=
  if n < 10 then Char.ofNat (48 + n) else Char.ofNat (55 + n)

/-- Value of a hexadecimal digit character, either case (`char::to_digit(16)`). -/
def digitVal (c : Char) : Nat :=
  let n := c.toNat
  if 48 ≤ n ∧ n ≤ 57 then n - 48
  else if 65 ≤ n ∧ n ≤ 70 then n - 55
  else if 97 ≤ n ∧ n ≤ 102 then n - 87
  else 99

/-- `c` is a digit in base `b` (`b ≤ 16`). -/
def isDigit (b : Nat) (c : Char) : Bool := decide (digitVal c < b)

/-- Positional notation in base `b` (`b ≥ 2`), most significant digit first, no leading zeros. -/
def toDigits (b : Nat) (n : Nat) : Str :=
  if _h : b < 2 ∨ n < b then [digitChar n]
  else toDigits b (n / b) ++ [digitChar (n % b)]
termination_by n
decreasing_by
  have : n / b < n := Nat.div_lt_self (by omega) (by omega)
  exact this

/-- Value of a digit string. -/
def ofDigits (b : Nat) (s : Str) : Nat := s.foldl (fun acc c => acc * b + digitVal c) 0

/-- An unsigned number in base `b`: non-empty, digits only. -/
def parseNat (b : Nat) (s : Str) : Option Nat :=
  if s ≠ [] ∧ s.all (isDigit b) then some (ofDigits b s) else none

/-- Rust unsigned integer parsing (`from_str_radix` / `parse::<u64>`) with upper bound `bound`
(exclusive): optional `+`, digits, no overflow. -/
def parseUnsigned (b bound : Nat) (s : Str) : Option Nat :=
  let body := match s with
    | '+' :: r => r
    | _ => s
  match parseNat b body with
  | some n => if n < bound then some n else none
  | none => none

/-- `str::parse::<u64>` -/
def parseU64 (s : Str) : Option Nat := parseUnsigned 10 (2 ^ 64) s

/-- `str::parse::<i32>` -/
def parseI32 (s : Str) : Option Int :=
  match s with
  | '-' :: r =>
    match parseNat 10 r with
    | some n => if n ≤ 2 ^ 31 then some (-(n : Int)) else none
    | none => none
  | '+' :: r =>
    match parseNat 10 r with
    | some n => if n < 2 ^ 31 then some (n : Int) else none
    | none => none
  | _ =>
    match parseNat 10 s with
    | some n => if n < 2 ^ 31 then some (n : Int) else none
    | none => none

/-- `i32::to_string` -/
def showInt (i : Int) : Str :=
  if i < 0 then '-' :: toDigits 10 i.natAbs else toDigits 10 i.natAbs

/-! ### Floats -/

/-- The float ordinal nearest to the decimal `m * 10^x` where `x = xp - xn`. -/
def decOrd (f : Fmt) (m xp xn : Nat) : Nat := f.round (m * 10 ^ xp) (10 ^ xn)

/-- Remove trailing zeros of a decimal `d * 10^(-x)`, at most `x` of them. -/
def strip (d : Nat) : Nat → Nat × Nat
  | 0 => (d, 0)
  | x + 1 => if d % 10 = 0 then strip (d / 10) x else (d, x + 1)

/-- Number of decimal digits minus one (`floor(log10 n)`, 0 for `n = 0`). -/
def log10 (n : Nat) : Nat := (toDigits 10 n).length - 1

/-- Decimal exponent `floor (log10 (v / 2^u)) + u`, for `v ≥ 1` (offset by `u` to stay natural;
`10^u > 2^u` so the scaled value is at least 1). -/
def dexp (f : Fmt) (v : Nat) : Nat := log10 (v * 10 ^ f.u / 2 ^ f.u)

/-- Round half up. -/
def rhu (a b : Nat) : Nat := (2 * a + b) / (2 * b)

/-- The whole number nearest to `a / b`, the larger one if there are two; or, of the two around `a / b`, the one
farther away. -/
def pick (far : Bool) (a b : Nat) : Nat := if far then 2 * (a / b) + 1 - rhu a b else rhu a b

/-- The decimal with `n` significant digits nearest to `v / 2^u`, or else its other neighbour with `n` digits,
as `(d, xp, xn)` with value `d * 10^xp / 10^xn`. -/
def cand (f : Fmt) (v n : Nat) (far : Bool) : Nat × Nat × Nat :=
  let e := dexp f v
  -- exponent x = e - u - (n - 1)
  if f.u + (n - 1) ≤ e then
    let xp := e - (f.u + (n - 1))
    (pick far v (2 ^ f.u * 10 ^ xp), xp, 0)
  else
    let xn := f.u + (n - 1) - e
    let s := strip (pick far (v * 10 ^ xn) (2 ^ f.u)) xn
    (s.1, 0, s.2)

/-- The exact decimal expansion of `v / 2^u`. -/
def exactDec (f : Fmt) (v : Nat) : Nat × Nat × Nat := (v * 5 ^ f.u, 0, f.u)

/-- Search for the shortest decimal that rounds to ordinal `k`: try `n`, `n+1`, … digits
(`fuel` attempts; the fallback, the exact expansion, is never needed, see `Float/Shortest.lean`).  With `n` digits
the nearest decimal is tried first.  The other neighbour comes next: below a power of two the floats are closer to
each other than above it, so the neighbour above may round to it when the nearest one, below, does not. -/
def search (f : Fmt) (k : Nat) : Nat → Nat → Nat × Nat × Nat
  | 0, _ => exactDec f (f.val k)
  | fuel + 1, n =>
    let c := cand f (f.val k) n false
    let d := cand f (f.val k) n true
    if decOrd f c.1 c.2.1 c.2.2 = k then c
    else if decOrd f d.1 d.2.1 d.2.2 = k then d
    else search f k fuel (n + 1)

/-- Left-pad with zeros. -/
def padZero (w : Nat) (s : Str) : Str := List.replicate (w - s.length) '0' ++ s

/-- Plain decimal notation of `d * 10^xp / 10^xn` (one of `xp`, `xn` is zero). -/
def showDec (d xp xn : Nat) : Str :=
  if xn = 0 then toDigits 10 (d * 10 ^ xp)
  else toDigits 10 (d / 10 ^ xn) ++ '.' :: padZero xn (toDigits 10 (d % 10 ^ xn))

/-- Magnitude text: zero is `0`, infinity is `inf`. -/
def showMag (f : Fmt) (k : Nat) : Str :=
  if k = f.inf then "inf".toList
  else if k = 0 then ['0']
  else
    let c := search f k 17 1
    showDec c.1 c.2.1 c.2.2

/-- `Display` of a float (`to_string`): shortest round-trip digits, never scientific notation,
`NaN`, `inf`, `-inf`, and `-0` for negative zero. -/
def showFloat {f : Fmt} : Flt f → Str
  | .nan => "NaN".toList
  | .num s k _ => if s then '-' :: showMag f k else showMag f k

/-- Number after the mantissa: optional exponent.  `m` is the mantissa without the point, `fl` the
number of fraction digits. -/
def parseExp (f : Fmt) (m fl : Nat) (r : Str) : Option Nat :=
  match r with
  | [] => some (decOrd f m 0 fl)
  | c :: r' =>
    if c = 'e' ∨ c = 'E' then
      match r' with
      | '-' :: ds => (parseNat 10 ds).map fun e => decOrd f m 0 (fl + e)
      | '+' :: ds => (parseNat 10 ds).map fun e => decOrd f m (e - fl) (fl - e)
      | ds => (parseNat 10 ds).map fun e => decOrd f m (e - fl) (fl - e)
    else none

/-- Unsigned decimal number: `digits [. digits] [exp]` or `. digits [exp]`. -/
def parseMag (f : Fmt) (s : Str) : Option Nat :=
  let ip := s.takeWhile (isDigit 10)
  match s.dropWhile (isDigit 10) with
  | '.' :: r =>
    let fp := r.takeWhile (isDigit 10)
    if ip = [] ∧ fp = [] then none
    else parseExp f (ofDigits 10 (ip ++ fp)) fp.length (r.dropWhile (isDigit 10))
  | r => if ip = [] then none else parseExp f (ofDigits 10 ip) 0 r

/-- ASCII lower case. -/
def lowerAscii (c : Char) : Char :=
  if 65 ≤ c.toNat ∧ c.toNat ≤ 90 then Char.ofNat (c.toNat + 32) else c

/-- Flt after the sign. -/
def parseUnsignedFloat (f : Fmt) (neg : Bool) (s : Str) : Option (Flt f) :=
  match parseMag f s with
  | some k => if h : k ≤ f.inf then some (.num neg k h) else none
  | none =>
    let l := s.map lowerAscii
    if l = "nan".toList then some .nan
    else if l = "inf".toList ∨ l = "infinity".toList then some (Flt.infinity neg)
    else none

/-- `str::parse::<f32>` / `parse::<f64>` -/
def parseFloat (f : Fmt) (s : Str) : Option (Flt f) :=
  match s with
  | '-' :: r => parseUnsignedFloat f true r
  | '+' :: r => parseUnsignedFloat f false r
  | _ => parseUnsignedFloat f false s

end Text
end Fl
