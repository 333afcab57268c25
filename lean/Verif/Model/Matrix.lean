import Verif.Model.Glif
/-!
# Matrices (src/matrix.rs)

`kurbo::Affine` and `kurbo::Point` are dependencies of `/repo`; their multiplication is modelled
here as kurbo documents it: `x' = a x + c y + e`, `y' = b x + d y + f`, evaluated left to right.
-/
open Fl
namespace GP
variable {PD D : Type}

instance {f : Fmt} : Add (Flt f) := ⟨Flt.add⟩
instance {f : Fmt} : Mul (Flt f) := ⟨Flt.mul⟩

/-- `kurbo::Affine`, over any type of numbers. -/
structure Aff (K : Type) where
  a : K
  b : K
  c : K
  d : K
  e : K
  f : K
  deriving DecidableEq, Repr

namespace Aff
variable {K : Type} [Add K] [Mul K]

/-- `impl Mul<Point> for Affine` -/
def app (m : Aff K) (p : K × K) : K × K :=
  (m.a * p.1 + m.c * p.2 + m.e, m.b * p.1 + m.d * p.2 + m.f)

/-- `impl Mul<Affine> for Affine` -/
def mul (m n : Aff K) : Aff K :=
  { a := m.a * n.a + m.c * n.b
    b := m.b * n.a + m.d * n.b
    c := m.a * n.c + m.c * n.d
    d := m.b * n.c + m.d * n.d
    e := m.a * n.e + m.c * n.f + m.e
    f := m.b * n.e + m.d * n.f + m.f }

end Aff

/-- `kurbo::Affine` (in `f64`) -/
abbrev Affine := Aff F64

/-- `Affine::IDENTITY` -/
def Affine.identity : Affine :=
  { a := Flt.ofInt b64 1, b := Flt.zero, c := Flt.zero, d := Flt.ofInt b64 1, e := Flt.zero, f := Flt.zero }

/-- src/matrix.rs 19-23, of the coefficients in the order of src/component.rs 66-75 (and
src/image.rs): `GlifMatrix(x_scale, xy_scale, yx_scale, y_scale, x_offset, y_offset)`. -/
def Mat6.affine (m : Mat6) : Affine :=
  { a := m.xScale.toF64, b := m.xyScale.toF64, c := m.yxScale.toF64, d := m.yScale.toF64,
    e := m.xOffset.toF64, f := m.yOffset.toF64 }

/-- `matrix * KurboPoint::new(x as f64, y as f64)`, then `as f32`; src/matrix.rs 31-33. -/
def Affine.app32 (m : Affine) (x y : F32) : F32 × F32 :=
  let k := Aff.app m (x.to64, y.to64)
  (k.1.to32, k.2.to32)

/-- src/matrix.rs 35-43 -/
def Handle.applyMatrix (m : Affine) : Handle → Handle
  | .at x y => let k := m.app32 x y; .at k.1 k.2
  | .colocated => .colocated

/-- src/matrix.rs 30-45 -/
def Point.applyMatrix (p : Point PD) (m : Affine) : Point PD :=
  let k := m.app32 p.x p.y
  { p with x := k.1, y := k.2, a := p.a.applyMatrix m, b := p.b.applyMatrix m }

end GP
