import Verif.Float.Error
import Verif.Spec.Matrix
/-!
# Exact results, and how far from them the computed ones may be (C91–C93)

`Flt.toRat` is the value of a finite float as a rational number.
-/
open Fl
namespace GP.Spec
variable {PD : Type}

/-- `x` is a finite number within `r` of `v`. -/
def Near {f : Fmt} (x : Flt f) (v r : ℚ) : Prop := x.isFinite = true ∧ |x.toRat - v| ≤ r

/-- The six coefficients are finite. -/
def FiniteMap (A : Affine) : Prop :=
  A.a.isFinite = true ∧ A.b.isFinite = true ∧ A.c.isFinite = true ∧ A.d.isFinite = true ∧ A.e.isFinite = true ∧ A.f.isFinite = true

/-- `c x + d y + e` -/
def line (c d e : F64) (x y : F32) : ℚ := c.toRat * x.toRat + d.toRat * y.toRat + e.toRat

/-- How large the numbers are that are added up in `c x + d y + e`. -/
def lineSize (c d e : F64) (x y : F32) : ℚ := |c.toRat * x.toRat| + |d.toRat * y.toRat| + |e.toRat|

/-- How far a computed `c x + d y + e` may be off: `2^-24` of the result for the rounding to `f32`, and `2^-50`
of the numbers added up, for the arithmetic in `f64`. -/
def lineError (c d e : F64) (x y : F32) : ℚ := |line c d e x y| / 2 ^ 24 + lineSize c d e x y / 2 ^ 50 + 1 / 2 ^ 149

/-- `(x', y')` is the image of `(x, y)`, as exactly as can be expected. -/
def Image (A : Affine) (x y x' y' : F32) : Prop :=
  Near x' (line A.a A.c A.e x y) (lineError A.a A.c A.e x y) ∧ Near y' (line A.b A.d A.f x y) (lineError A.b A.d A.f x y)

/-- The images of the numbers are of a size that `f32` can hold. -/
def Fitting (A : Affine) (x y : F32) : Prop := lineSize A.a A.c A.e x y ≤ 2 ^ 126 ∧ lineSize A.b A.d A.f x y ≤ 2 ^ 126

/-- The same for a handle; implicit handles stay implicit. -/
def HandleImage (A : Affine) : Handle → Handle → Prop
  | .at x y, .at x' y' => Image A x y x' y'
  | .colocated, .colocated => True
  | _, _ => False

/-- The same for a handle. -/
def FittingHandle (A : Affine) : Handle → Prop
  | .at x y => Fitting A x y
  | .colocated => True

/-- How far a sum `v` computed in `f32` may be off, if a rounded difference `d` is one of the summands. -/
def sumError (v d : ℚ) : ℚ := (|v| + 2 * |d|) / 2 ^ 24

/-- `x'` is `x` moved by `d`, as exactly as can be expected. -/
def MovedFor (d : ℚ) (x x' : F32) : Prop := Near x' (x.toRat + d) (sumError (x.toRat + d) d)

/-- A handle moved by `(dx, dy)`; implicit handles stay implicit. -/
def HandleMovedFor (dx dy : ℚ) : Handle → Handle → Prop
  | .at x y, .at x' y' => MovedFor dx x x' ∧ MovedFor dy y y'
  | .colocated, .colocated => True
  | _, _ => False

/-- The handle is finite, and still of a size that `f32` can hold if moved by `(dx, dy)`. -/
def RoomFor (dx dy : ℚ) : Handle → Prop
  | .at x y => x.isFinite = true ∧ y.isFinite = true ∧ |x.toRat + dx| ≤ 2 ^ 125 ∧ |y.toRat + dy| ≤ 2 ^ 125
  | .colocated => True

end GP.Spec
