import Verif.Spec.Accuracy
import Verif.Spec.Component
/-!
# Where a chain of matrices puts a point (C106)

Everything here is in exact rational numbers.
-/
open Fl
namespace GP.Spec
variable {PD D : Type}

/-- Where the map puts a point. -/
def exactImage (A : Affine) (p : ℚ × ℚ) : ℚ × ℚ :=
  (A.a.toRat * p.1 + A.c.toRat * p.2 + A.e.toRat, A.b.toRat * p.1 + A.d.toRat * p.2 + A.f.toRat)

/-- Where a chain of maps puts a point, the first one applied first. -/
def exactChain : List Affine → ℚ × ℚ → ℚ × ℚ
  | [], p => p
  | A :: As, p => exactChain As (exactImage A p)

/-- The coordinates that come out of a chain of computed images. -/
def images : List Affine → F32 × F32 → F32 × F32
  | [], p => p
  | A :: As, p => images As (image A p.1 p.2)

/-- The map is finite and makes no distance along the axes longer than `L` times. -/
def StretchAtMost (L : ℚ) (A : Affine) : Prop :=
  FiniteMap A ∧ |A.a.toRat| + |A.c.toRat| ≤ L ∧ |A.b.toRat| + |A.d.toRat| ≤ L

/-- On its exact way through the chain, the numbers added up for a point are at most `B` together. -/
def WayAtMost (B : ℚ) : List Affine → ℚ × ℚ → Prop
  | [], _ => True
  | A :: As, p => |A.a.toRat * p.1| + |A.c.toRat * p.2| + |A.e.toRat| ≤ B ∧
      |A.b.toRat * p.1| + |A.d.toRat * p.2| + |A.f.toRat| ≤ B ∧ WayAtMost B As (exactImage A p)

/-- A point that is off by `e` is moved by one more map: it is off by what `e` is stretched to, and by the rounding
of the new coordinate. -/
def nextError (L B e : ℚ) : ℚ := L * e + (B + L * e) / 2 ^ 23 + 1 / 2 ^ 149

/-- How far a point may be off after `n` maps. -/
def chainError (L B : ℚ) : ℕ → ℚ
  | 0 => 0
  | n + 1 => nextError L B (chainError L B n)

/-- Two finite numbers are within `r` of the place `v`. -/
def Lands (x y : F32) (v : ℚ × ℚ) (r : ℚ) : Prop := Near x v.1 r ∧ Near y v.2 r

/-- A handle lands where the chain puts it; implicit handles stay implicit. -/
def HandleLands (As : List Affine) (r : ℚ) : Handle → Handle → Prop
  | .at x y, .at x' y' => Lands x' y' (exactChain As (x.toRat, y.toRat)) r
  | .colocated, .colocated => True
  | _, _ => False

/-- A point and its handles land where the chain puts them. -/
def PointLands (As : List Affine) (r : ℚ) (p q : Point PD) : Prop :=
  Lands q.x q.y (exactChain As (p.x.toRat, p.y.toRat)) r ∧ HandleLands As r p.a q.a ∧ HandleLands As r p.b q.b

/-- Two finite coordinates stay small on their way. -/
def Tame (B : ℚ) (As : List Affine) (x y : F32) : Prop :=
  x.isFinite = true ∧ y.isFinite = true ∧ WayAtMost B As (x.toRat, y.toRat)

/-- The same for a handle. -/
def TameHandle (B : ℚ) (As : List Affine) : Handle → Prop
  | .at x y => Tame B As x y
  | .colocated => True

/-- The same for a point with its handles. -/
def TamePoint (B : ℚ) (As : List Affine) (p : Point PD) : Prop :=
  Tame B As p.x p.y ∧ TameHandle B As p.a ∧ TameHandle B As p.b

/-- The contours of a node land where the exact composition of its own matrix and those of its ancestors puts them,
within the error that `r` allows for so many matrices, wherever they stay small on their way. -/
def NodeLands (B : ℚ) (r : ℕ → ℚ) (n : List Affine × Component PD D) (o : Outline PD) : Prop :=
  List.Forall₂ (List.Forall₂ fun p q => TamePoint B (n.2.matrix :: n.1) p →
    PointLands (n.2.matrix :: n.1) (r (n.1.length + 1)) p q) (n.2.glif.outline.getD []) o

end GP.Spec
