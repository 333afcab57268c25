import Verif.Lemmas.Matrix
import Mathlib.Tactic.Ring
/-!
# Applying a matrix (C39)
-/
open Fl
namespace GP
variable {PD D : Type}

/-- **C39**, first part: one affine map `(x, y) ↦ (a x + c y + e, b x + d y + f)` (in `f64`, rounded
to `f32` at the end) moves the point and its explicit handles; implicit handles stay implicit and
the rest of the point is kept. -/
theorem C39_same_map (m : Affine) : ∃ F : F32 → F32 → F32 × F32,
    (∀ x y, F x y = ((m.a * x.to64 + m.c * y.to64 + m.e).to32, (m.b * x.to64 + m.d * y.to64 + m.f).to32)) ∧
    ∀ p : Point PD, Spec.MovedBy F p (p.applyMatrix m) := by
  refine ⟨m.app32, fun _ _ => rfl, fun p => ⟨rfl, ?_, ?_, ?_, ?_, rfl, rfl, rfl, rfl⟩⟩ <;>
    intros <;> simp_all [Point.applyMatrix, Handle.applyMatrix]

theorem identity_handle {h : Handle} (hf : Spec.FiniteHandle h) :
    Spec.SameHandle (h.applyMatrix Affine.identity) h := by
  cases h with
  | colocated => trivial
  | «at» x y => exact identity_app32 hf.1 hf.2

/-- **C39**, second part: the identity leaves every finite point numerically unchanged. -/
theorem C39_identity (p : Point PD) (h : Spec.FinitePoint p) :
    Spec.SamePoint (p.applyMatrix Affine.identity) p := by
  obtain ⟨hx, hy, ha, hb⟩ := h
  have := identity_app32 hx hy
  exact ⟨this.1, this.2, identity_handle ha, identity_handle hb, rfl, rfl, rfl, rfl⟩

/-- The matrix of a `<component>` and of an `<image>` without matrix attributes is the identity. -/
theorem C39_default_matrix : GlifComponent.new.m.affine = Affine.identity ∧
    ∀ f, (GlifImage.fromFilename f).m.affine = Affine.identity :=
  ⟨by decide +kernel, fun _ => (by decide +kernel : (GlifImage.fromFilename []).m.affine = Affine.identity)⟩

/-- **C39**, third part: over exact arithmetic applying two matrices in turn is applying their
product. -/
theorem C39_product {K : Type} [CommRing K] (m n : Aff K) (p : K × K) :
    (m.mul n).app p = m.app (n.app p) := by
  simp only [Aff.app, Aff.mul, Prod.mk.injEq]
  constructor <;> ring

/-- For integer coefficients and coordinates up to `2^24` in magnitude, the coordinates computed
are the exact images, rounded once to `f32`. -/
theorem C39_integers (m : Affine) (p : Point PD) (a b c d e f x y : Int)
    (ha : Spec.IsInt m.a a) (hb : Spec.IsInt m.b b) (hc : Spec.IsInt m.c c) (hd : Spec.IsInt m.d d)
    (he : Spec.IsInt m.e e) (hf : Spec.IsInt m.f f) (hx : Spec.IsInt p.x x) (hy : Spec.IsInt p.y y)
    (la : a.natAbs ≤ 2 ^ 24) (lb : b.natAbs ≤ 2 ^ 24) (lc : c.natAbs ≤ 2 ^ 24) (ld : d.natAbs ≤ 2 ^ 24)
    (le : e.natAbs ≤ 2 ^ 24) (lf : f.natAbs ≤ 2 ^ 24) (lx : x.natAbs ≤ 2 ^ 24) (ly : y.natAbs ≤ 2 ^ 24) :
    (p.applyMatrix m).x.normZero = (Flt.ofInt b32 (a * x + c * y + e)).normZero ∧
    (p.applyMatrix m).y.normZero = (Flt.ofInt b32 (b * x + d * y + f)).normZero := by
  have big : 2 ^ 24 ≤ 2 ^ b64.p := by decide
  have ex := to64_exact (isInt_exact b32_p b32_inf_big lx hx)
  have ey := to64_exact (isInt_exact b32_p b32_inf_big ly hy)
  rw [Int.mul_assoc, show b32.u = 149 from rfl, ← Int.pow_add, show 149 + 925 = b64.u from rfl] at ex ey
  have prod : ∀ u v : Int, u.natAbs ≤ 2 ^ 24 → v.natAbs ≤ 2 ^ 24 → (u * v).natAbs ≤ 2 ^ 48 := by
    intro u v hu hv
    rw [Int.natAbs_mul]
    exact Nat.le_trans (Nat.mul_le_mul hu hv) (by decide)
  have key : ∀ (q r s : F64) (i j k : Int), Spec.IsInt q i → Spec.IsInt r j → Spec.IsInt s k →
      i.natAbs ≤ 2 ^ 24 → j.natAbs ≤ 2 ^ 24 → k.natAbs ≤ 2 ^ 24 →
      Exact (q * p.x.to64 + r * p.y.to64 + s) ((i * x + j * y + k) * 2 ^ b64.u) := by
    intro q r s i j k hq hr hs li lj lk
    have p1 := prod i x li lx
    have p2 := prod j y lj ly
    have b53 : (2 : Nat) ^ b64.p = 9007199254740992 := rfl
    have e1 := int_mul b64_p b64_inf_big (isInt_exact b64_p b64_inf_big (Nat.le_trans li big) hq) ex (by omega)
    have e2 := int_mul b64_p b64_inf_big (isInt_exact b64_p b64_inf_big (Nat.le_trans lj big) hr) ey (by omega)
    have e3 := int_add b64_p b64_inf_big e1 e2 (by omega)
    exact int_add b64_p b64_inf_big e3 (isInt_exact b64_p b64_inf_big (Nat.le_trans lk big) hs) (by omega)
  exact ⟨to32_of_int (key m.a m.c m.e a c e ha hc he la lc le), to32_of_int (key m.b m.d m.f b d f hb hd hf lb ld lf)⟩

/-- A point that meets the hypotheses of `C39_identity`, with one explicit handle. -/
def matrixSample : Point Unit :=
  { x := Flt.ofInt b32 3, y := Flt.ofInt b32 (-5), a := .at (Flt.ofInt b32 7) (Flt.ofInt b32 0), ptype := .curve }

example : Spec.FinitePoint matrixSample := ⟨by decide +kernel, by decide +kernel, ⟨by decide +kernel, by decide +kernel⟩, trivial⟩

/-- Coefficients as in a file: mirrored and moved. -/
def matrixSample2 : Mat6 :=
  { xScale := .int (-1), xyScale := .int 0, yxScale := .float (Flt.ofInt b32 2), yScale := .int 1,
    xOffset := .int 100, yOffset := .int (-7) }

example : Spec.IsInt matrixSample2.affine.a (-1) ∧ Spec.IsInt matrixSample2.affine.b 0 ∧
    Spec.IsInt matrixSample2.affine.c 2 ∧ Spec.IsInt matrixSample2.affine.d 1 ∧
    Spec.IsInt matrixSample2.affine.e 100 ∧ Spec.IsInt matrixSample2.affine.f (-7) ∧
    Spec.IsInt matrixSample.x 3 ∧ Spec.IsInt matrixSample.y (-5) := by
  refine ⟨?_, ?_, ?_, ?_, ?_, ?_, ?_, ?_⟩ <;> unfold Spec.IsInt <;> decide +kernel

example : (matrixSample.applyMatrix matrixSample2.affine).x = Flt.ofInt b32 87 := by decide +kernel

end GP
