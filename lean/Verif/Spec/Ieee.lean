import Verif.Spec.Shortest
/-!
# IEEE 754 arithmetic and comparison, for C99

Written from the tables of IEEE 754-2019 (6.1 infinities, 6.2 NaN, 6.3 the sign bit, 5.11 comparisons) over
rational numbers, and from the Rust reference for casts to integers.
-/
open Fl GP.Spec
namespace GP.Spec.Ieee

/-- What a float stands for: a number of a sign and a magnitude, an infinity, or no number. -/
inductive Datum where
  | nan
  | inf (neg : Bool)
  | fin (neg : Bool) (m : ℚ)

/-- What a float stands for. -/
def datum {f : Fmt} : Flt f → Datum
  | .nan => .nan
  | .num s k _ => if k = f.inf then .inf s else .fin s (magnitude f k)

/-- A magnitude with a sign. -/
def signed (neg : Bool) (m : ℚ) : ℚ := if neg then -m else m

/-- The float nearest to a magnitude, the even one of two; beyond the largest one it is infinite. -/
def NearestTo {f : Fmt} (neg : Bool) (m : ℚ) (z : Flt f) : Prop := ∃ k h, z = .num neg k h ∧ ReadsAs f k m

/-- Sums.  An exact zero is positive unless both are negative. -/
def SumIs {f : Fmt} (z : Flt f) : Datum → Datum → Prop
  | .fin s a, .fin t b =>
    (signed s a + signed t b = 0 → datum z = .fin (s && t) 0) ∧
    (signed s a + signed t b ≠ 0 → NearestTo (signed s a + signed t b < 0) |signed s a + signed t b| z)
  | .inf s, .inf t => datum z = if s = t then .inf s else .nan
  | .inf s, .fin _ _ => datum z = .inf s
  | .fin _ _, .inf t => datum z = .inf t
  | .nan, _ => datum z = .nan
  | _, .nan => datum z = .nan

/-- The other sign. -/
def opposite : Datum → Datum
  | .nan => .nan
  | .inf s => .inf !s
  | .fin s m => .fin (!s) m

/-- Products.  The sign is negative if the signs differ; infinity times zero is no number. -/
def ProductIs {f : Fmt} (z : Flt f) : Datum → Datum → Prop
  | .fin s a, .fin t b => NearestTo (s ^^ t) (a * b) z
  | .inf s, .inf t => datum z = .inf (s ^^ t)
  | .inf s, .fin t b => (b = 0 → datum z = .nan) ∧ (b ≠ 0 → datum z = .inf (s ^^ t))
  | .fin s a, .inf t => (a = 0 → datum z = .nan) ∧ (a ≠ 0 → datum z = .inf (s ^^ t))
  | .nan, _ => datum z = .nan
  | _, .nan => datum z = .nan

/-- Quotients. -/
def QuotientIs {f : Fmt} (z : Flt f) : Datum → Datum → Prop
  | .fin s a, .fin t b =>
    (b ≠ 0 → NearestTo (s ^^ t) (a / b) z) ∧ (b = 0 → a = 0 → datum z = .nan) ∧ (b = 0 → a ≠ 0 → datum z = .inf (s ^^ t))
  | .inf _, .inf _ => datum z = .nan
  | .inf s, .fin t _ => datum z = .inf (s ^^ t)
  | .fin s _, .inf t => datum z = .fin (s ^^ t) 0
  | .nan, _ => datum z = .nan
  | _, .nan => datum z = .nan

/-- `k` is what the root of `a` is rounded to.  The root need not be rational: numbers below it are rounded to no more
than it, numbers above it to no less. -/
def RootReadsAs (f : Fmt) (k : Nat) (a : ℚ) : Prop :=
  ∀ y j, 0 ≤ y → j ≤ f.inf → ReadsAs f j y → (y ^ 2 ≤ a → j ≤ k) ∧ (a ≤ y ^ 2 → k ≤ j)

/-- Square roots.  A zero keeps its sign, and what is below zero has no root. -/
def RootIs {f : Fmt} (z : Flt f) : Datum → Prop
  | .fin s a =>
    (a = 0 → datum z = .fin s 0) ∧ (a ≠ 0 → s = true → datum z = .nan) ∧
    (a ≠ 0 → s = false → ∃ k h, z = .num false k h ∧ RootReadsAs f k a)
  | .inf s => datum z = if s then .nan else .inf false
  | .nan => datum z = .nan

/-- Less: the signs of zeros do not count, and nothing compares to what is no number. -/
def Less : Datum → Datum → Prop
  | .fin s a, .fin t b => signed s a < signed t b
  | .inf s, .inf t => s = true ∧ t = false
  | .inf s, .fin _ _ => s = true
  | .fin _ _, .inf t => t = false
  | _, _ => False

/-- Equal. -/
def Equal : Datum → Datum → Prop
  | .fin s a, .fin t b => signed s a = signed t b
  | .inf s, .inf t => s = t
  | _, _ => False

/-- The same number in another format. -/
def Converted {g : Fmt} (z : Flt g) : Datum → Prop
  | .fin s a => NearestTo s a z
  | .inf s => datum z = .inf s
  | .nan => datum z = .nan

/-- The nearest whole number, of two the one away from zero. -/
def ToWhole {f : Fmt} (z : Flt f) : Datum → Prop
  | .fin s a => ∃ n : Nat, datum z = .fin s n ∧ (n : ℚ) - 1 / 2 ≤ a ∧ a < n + 1 / 2
  | .inf s => datum z = .inf s
  | .nan => datum z = .nan

/-- The part before the point, between bounds; 0 if there is no number. -/
def Truncated (lo hi : Int) (i : Int) : Datum → Prop
  | .fin s a => ∃ n : Nat, (n : ℚ) ≤ a ∧ a < n + 1 ∧ i = max lo (min hi (if s then -(n : Int) else n))
  | .inf s => i = if s then lo else hi
  | .nan => i = 0

/-- `a x + b y + c` in double precision, one operation after the other, for single precision coordinates. -/
def LineIs (a b c : F64) (x y z : F32) : Prop :=
  ∃ X Y P Q R S : F64, Converted X (datum x) ∧ Converted Y (datum y) ∧ ProductIs P (datum a) (datum X) ∧
    ProductIs Q (datum b) (datum Y) ∧ SumIs R (datum P) (datum Q) ∧ SumIs S (datum R) (datum c) ∧ Converted z (datum S)

end GP.Spec.Ieee
