/-!
# IEEE-754 binary floating point, concretely

`f32` and `f64` of Rust, with a single NaN.  A non-NaN value is a sign and the *ordinal* `k`
of its magnitude, i.e. the exponent and mantissa bits of the encoding read as a natural number.
The magnitude of ordinal `k` is `val k` in units of `2^(-u)` (the smallest subnormal).

This file models behaviour of the Rust standard library (`f32`, `f64` primitive operations), not
code of `/repo`; the `/repo` code that relies on it is cited at the definitions using it.
-/
namespace Fl

/-- A binary interchange format: precision `p` (with hidden bit), unit `2^(-u)`, and the ordinal
`inf` of infinity. -/
structure Fmt where
  p : Nat
  u : Nat
  inf : Nat
  deriving DecidableEq, Repr

/-- binary32 -/
def b32 : Fmt := ⟨24, 149, 255 * 2 ^ 23⟩
/-- binary64 -/
def b64 : Fmt := ⟨53, 1074, 2047 * 2 ^ 52⟩

/-- A float of format `f`: NaN, or sign and ordinal (`k = f.inf` is infinity). -/
inductive Flt (f : Fmt) where
  | nan
  | num (neg : Bool) (k : Nat) (h : k ≤ f.inf)
  deriving DecidableEq, Repr

/-- Rust `f32`. -/
abbrev F32 := Flt b32
/-- Rust `f64`. -/
abbrev F64 := Flt b64

namespace Fmt

/-- Magnitude of ordinal `k`, in units of `2^(-u)`. -/
def val (f : Fmt) (k : Nat) : Nat :=
  if k < 2 ^ (f.p - 1) then k
  else (k % 2 ^ (f.p - 1) + 2 ^ (f.p - 1)) * 2 ^ (k / 2 ^ (f.p - 1) - 1)

end Fmt

/-- Round `a / b` to the nearest natural number, ties to even. -/
def rne (a b : Nat) : Nat :=
  if 2 * (a % b) < b then a / b
  else if b < 2 * (a % b) then a / b + 1
  else a / b + (a / b) % 2

namespace Fmt

/-- The shift (binary exponent above the unit) used to represent a magnitude whose integer part
in units is `t`. -/
def shift (f : Fmt) (t : Nat) : Nat :=
  if t < 2 ^ f.p then 0 else Nat.log2 t - (f.p - 1)

/-- Ordinal of the float nearest to `n / d`, exponent unbounded above. -/
def roundU (f : Fmt) (n d : Nat) : Nat :=
  let N := n * 2 ^ f.u
  let s := f.shift (N / d)
  s * 2 ^ (f.p - 1) + rne N (d * 2 ^ s)

/-- Ordinal of the float nearest to `n / d` (round to nearest even, overflow to infinity). -/
def round (f : Fmt) (n d : Nat) : Nat := min (f.roundU n d) f.inf

theorem round_le (f : Fmt) (n d : Nat) : f.round n d ≤ f.inf := Nat.min_le_right _ _

end Fmt

namespace Flt
variable {f : Fmt}

/-- The float with the given sign nearest to `n / d`. -/
def ofFrac (f : Fmt) (neg : Bool) (n d : Nat) : Flt f := .num neg (f.round n d) (f.round_le n d)

def zero : Flt f := .num false 0 (Nat.zero_le _)
def negZero : Flt f := .num true 0 (Nat.zero_le _)
def infinity (neg : Bool) : Flt f := .num neg f.inf (Nat.le_refl _)

instance : Inhabited (Flt f) := ⟨zero⟩

/-- `is_nan` -/
def isNaN : Flt f → Bool
  | nan => true
  | num .. => false

/-- finite: neither NaN nor infinite -/
def isFinite : Flt f → Bool
  | nan => false
  | num _ k _ => decide (k < f.inf)

/-- `is_subnormal` -/
def isSubnormal : Flt f → Bool
  | nan => false
  | num _ k _ => decide (0 < k) && decide (k < 2 ^ (f.p - 1))

/-- Signed magnitude of a finite float in units of `2^(-u)` (0 for NaN, not used there). -/
def sval : Flt f → Int
  | nan => 0
  | num neg k _ => if neg then -(f.val k : Int) else (f.val k : Int)

/-- IEEE `==` -/
def feq : Flt f → Flt f → Bool
  | num s k _, num s' k' _ => (k == k' && (s == s' || k == 0))
  | _, _ => false

/-- IEEE `<` -/
def flt : Flt f → Flt f → Bool
  | num s k _, num s' k' _ =>
    match s, s' with
    | false, false => decide (k < k')
    | true, true => decide (k' < k)
    | true, false => decide (0 < k) || decide (0 < k')
    | false, true => false
  | _, _ => false

/-- IEEE `<=` -/
def fle (a b : Flt f) : Bool := flt a b || feq a b

def neg : Flt f → Flt f
  | nan => nan
  | num s k h => num (!s) k h

/-- Conversion between formats (`as f64`, `as f32`). -/
def cast (g : Fmt) : Flt f → Flt g
  | nan => nan
  | num s k _ => if k = f.inf then infinity s else ofFrac g s (f.val k) (2 ^ f.u)

/-- From an integer (`as f32` / `From<i32>`). -/
def ofInt (f : Fmt) (i : Int) : Flt f := ofFrac f (decide (i < 0)) i.natAbs 1

/-- IEEE addition. -/
def add (a b : Flt f) : Flt f :=
  match a, b with
  | num s k _, num s' k' _ =>
    if k = f.inf then (if k' = f.inf ∧ s ≠ s' then nan else infinity s)
    else if k' = f.inf then infinity s'
    else
      let v := sval a + sval b
      if v = 0 then (if s && s' then negZero else zero)
      else ofFrac f (decide (v < 0)) v.natAbs (2 ^ f.u)
  | _, _ => nan

/-- IEEE subtraction. -/
def sub (a b : Flt f) : Flt f := add a (neg b)

/-- IEEE multiplication. -/
def mul (a b : Flt f) : Flt f :=
  match a, b with
  | num s k _, num s' k' _ =>
    if k = f.inf then (if k' = 0 then nan else infinity (s != s'))
    else if k' = f.inf then (if k = 0 then nan else infinity (s != s'))
    else ofFrac f (s != s') (f.val k * f.val k') (2 ^ f.u * 2 ^ f.u)
  | _, _ => nan

/-- IEEE division. -/
def div (a b : Flt f) : Flt f :=
  match a, b with
  | num s k _, num s' k' _ =>
    if k = f.inf then (if k' = f.inf then nan else infinity (s != s'))
    else if k' = f.inf then num (s != s') 0 (Nat.zero_le _)
    else if k' = 0 then (if k = 0 then nan else infinity (s != s'))
    else ofFrac f (s != s') (f.val k) (f.val k')
  | _, _ => nan

/-- Magnitude rounded to the nearest natural number, halves away from zero. -/
def magRound (f : Fmt) (k : Nat) : Nat := (2 * f.val k + 2 ^ f.u) / 2 ^ (f.u + 1)

/-- `f32::round`: nearest integer, halves away from zero, sign kept. -/
def roundInt : Flt f → Flt f
  | nan => nan
  | num s k h => if k = f.inf then num s k h else ofFrac f s (magRound f k) 1

/-- `as u64`: truncation, saturating; NaN gives 0. -/
def toU64 : Flt f → Nat
  | nan => 0
  | num s k _ =>
    if s then 0
    else if k = f.inf then 2 ^ 64 - 1
    else min (f.val k / 2 ^ f.u) (2 ^ 64 - 1)

/-- `as i32`: truncation, saturating; NaN gives 0. -/
def toI32 : Flt f → Int
  | nan => 0
  | num s k _ =>
    if s then
      if k = f.inf then -(2 ^ 31) else max (-((f.val k / 2 ^ f.u : Nat) : Int)) (-(2 ^ 31))
    else
      if k = f.inf then 2 ^ 31 - 1 else min (((f.val k / 2 ^ f.u : Nat) : Int)) (2 ^ 31 - 1)

/-- Replace `-0` by `+0`; identity otherwise. -/
def normZero : Flt f → Flt f
  | nan => nan
  | num s k h => num (s && k != 0) k h

end Flt

/-- `f32 as f64` -/
def F32.to64 (x : F32) : F64 := Flt.cast b64 x
/-- `f64 as f32` -/
def F64.to32 (x : F64) : F32 := Flt.cast b32 x

end Fl
