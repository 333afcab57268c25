import Verif.Model.Matrix
/-!
# What applying a matrix should do
-/
open Fl
namespace GP.Spec
variable {PD : Type}

/-- `q` is `p` with its position and its explicit handles moved by `F`, and nothing else changed. -/
structure MovedBy (F : F32 → F32 → F32 × F32) (p q : Point PD) : Prop where
  pos : (q.x, q.y) = F p.x p.y
  a_at : ∀ x y, p.a = .at x y → q.a = .at (F x y).1 (F x y).2
  a_co : p.a = .colocated → q.a = .colocated
  b_at : ∀ x y, p.b = .at x y → q.b = .at (F x y).1 (F x y).2
  b_co : p.b = .colocated → q.b = .colocated
  name : q.name = p.name
  ptype : q.ptype = p.ptype
  smooth : q.smooth = p.smooth
  data : q.data = p.data

/-- Two handles are numerically the same (`==` on the coordinates). -/
def SameHandle : Handle → Handle → Prop
  | .at x y, .at x' y' => x.feq x' = true ∧ y.feq y' = true
  | .colocated, .colocated => True
  | _, _ => False

/-- Two points are numerically the same. -/
def SamePoint (p q : Point PD) : Prop :=
  p.x.feq q.x = true ∧ p.y.feq q.y = true ∧ SameHandle p.a q.a ∧ SameHandle p.b q.b ∧
    p.name = q.name ∧ p.ptype = q.ptype ∧ p.smooth = q.smooth ∧ p.data = q.data

/-- The handle has finite coordinates, if any. -/
def FiniteHandle : Handle → Prop
  | .at x y => x.isFinite = true ∧ y.isFinite = true
  | .colocated => True

/-- All coordinates of a point are finite. -/
def FinitePoint (p : Point PD) : Prop :=
  p.x.isFinite = true ∧ p.y.isFinite = true ∧ FiniteHandle p.a ∧ FiniteHandle p.b

/-- The float `x` is the integer `i`. -/
def IsInt {f : Fmt} (x : Flt f) (i : Int) : Prop := x.feq (Flt.ofInt f i) = true

/-- The number as an `f64`, which loses nothing. -/
def number64 : IOF → F64
  | .int i _ => Flt.ofInt b64 i
  | .float x => x.to64

/-- The map `(x, y) ↦ (xScale x + yxScale y + xOffset, xyScale x + yScale y + yOffset)`. -/
def Represents (m : Mat6) (A : Affine) : Prop :=
  A.a = number64 m.xScale ∧ A.b = number64 m.xyScale ∧ A.c = number64 m.yxScale ∧ A.d = number64 m.yScale ∧
  A.e = number64 m.xOffset ∧ A.f = number64 m.yOffset

end GP.Spec
