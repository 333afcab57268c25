import Verif.Model.Point
/-! Specification: what it means to round a float, and coordinates a valid point may have. -/
open Fl
namespace GP.Spec

/-- `y` is `x` rounded to the nearest integer, halves away from zero.  A magnitude is a natural
number of units of `2^(-149)`: the result is `M` whole numbers with
`M - 1/2 ≤ |x| < M + 1/2`, and has the sign of `x`.  NaN and infinities stay. -/
def RoundsTo (x y : F32) : Prop :=
  match x with
  | .nan => y = .nan
  | .num s k h =>
    (k = b32.inf ∧ y = .num s k h) ∨
    (k ≠ b32.inf ∧ ∃ (M j : Nat) (hj : j ≤ b32.inf), j ≠ b32.inf ∧ y = .num s j hj ∧
      b32.val j = M * 2 ^ 149 ∧
      2 * (M * 2 ^ 149) ≤ 2 * b32.val k + 2 ^ 149 ∧ 2 * b32.val k < 2 * (M * 2 ^ 149) + 2 ^ 149)

/-- `n` is `x` rounded to the nearest whole number, halves away from zero, or the end of the range of an
`i32` that is nearer.  NaN gives zero. -/
def RoundsToInt (x : F32) (n : Int) : Prop :=
  match x with
  | .nan => n = 0
  | .num s k _ =>
    (k = b32.inf ∧ n = if s then -(2 ^ 31) else 2 ^ 31 - 1) ∨
    (k ≠ b32.inf ∧ ∃ M : Nat, 2 * (M * 2 ^ 149) ≤ 2 * b32.val k + 2 ^ 149 ∧ 2 * b32.val k < 2 * (M * 2 ^ 149) + 2 ^ 149 ∧
      n = if s then max (-(M : Int)) (-(2 ^ 31)) else min (M : Int) (2 ^ 31 - 1))

/-- A coordinate that may appear in a file: not NaN, not subnormal. -/
def Sound (x : F32) : Prop := x.isNaN = false ∧ x.isSubnormal = false

/-- Both coordinates of an explicit handle are sound. -/
def HandleSound : Handle → Prop
  | .at x y => Sound x ∧ Sound y
  | .colocated => True

end GP.Spec
