import Verif.Spec.Matrix
import Verif.Float.Arith
/-!
# Lemmas on applying matrices
-/
open Fl
namespace GP
variable {PD D : Type}

theorem add_def {f : Fmt} (x y : Flt f) : x + y = Flt.add x y := rfl
theorem mul_def {f : Fmt} (x y : Flt f) : x * y = Flt.mul x y := rfl

theorem feq_of_exact {f : Fmt} (hp : 1 ≤ f.p) {x y : Flt f} {v : Int} (hx : Exact x v) (hy : Exact y v) :
    x.feq y = true := by
  have h := normZero_eq_of_sval hp hx hy
  obtain ⟨s, k, hk, rfl, hkl⟩ := finite_num hx.1
  obtain ⟨s', k', hk', rfl, hkl'⟩ := finite_num hy.1
  simp only [Flt.normZero, Flt.num.injEq] at h
  obtain ⟨h1, rfl⟩ := h
  rcases Nat.eq_zero_or_pos k with h0 | h0
  · simp [Flt.feq, h0]
  · have : (k != 0) = true := by simp; omega
    rw [this] at h1
    simp at h1
    simp [Flt.feq, h1]

theorem exact_of_feq {f : Fmt} {x y : Flt f} {v : Int} (hx : Exact x v) (h : y.feq x = true) : Exact y v := by
  obtain ⟨s, k, hk, rfl, hkl⟩ := finite_num hx.1
  cases y with
  | nan => simp [Flt.feq] at h
  | num s' k' hk' =>
    simp only [Flt.feq, Bool.and_eq_true, beq_iff_eq, Bool.or_eq_true] at h
    obtain ⟨rfl, h⟩ := h
    refine ⟨by simp [Flt.isFinite, hkl], ?_⟩
    rw [← hx.2]
    rcases h with h | h
    · subst h; rfl
    · subst h
      cases s <;> cases s' <;> simp [Flt.sval, Fmt.val_zero]

/-- `1 * x + 0 * y + 0` in `f64`, for finite `x` and `y`. -/
theorem one_zero_zero {x y z : F64} {v w : Int} (hx : Exact x v) (hy : Exact y w) (hz : Exact z 0) :
    Exact (Flt.ofInt b64 1 * x + Flt.zero * y + z) v := by
  have h1 : Exact (Flt.ofInt b64 1) (2 ^ b64.u) := exact_one b64_p b64_inf_big
  have h0 : Exact (Flt.zero : F64) 0 := exact_zero (by decide)
  have e1 : Exact (Flt.ofInt b64 1 * x) v := mul_exact b64_p h1 hx hx (Int.mul_comm _ _)
  have e2 : Exact ((Flt.zero : F64) * y) 0 := mul_exact b64_p h0 hy h0 (by rw [Int.zero_mul, Int.zero_mul])
  have e3 := add_exact b64_p e1 e2 (by rw [Int.add_zero]; exact e1)
  rw [Int.add_zero] at e3
  have e4 := add_exact b64_p e3 hz (by rw [Int.add_zero]; exact e3)
  rw [Int.add_zero] at e4
  exact e4

theorem zero_one_zero {x y z : F64} {v w : Int} (hx : Exact x v) (hy : Exact y w) (hz : Exact z 0) :
    Exact (Flt.zero * y + Flt.ofInt b64 1 * x + z) v := by
  have h1 : Exact (Flt.ofInt b64 1) (2 ^ b64.u) := exact_one b64_p b64_inf_big
  have h0 : Exact (Flt.zero : F64) 0 := exact_zero (by decide)
  have e1 : Exact (Flt.ofInt b64 1 * x) v := mul_exact b64_p h1 hx hx (Int.mul_comm _ _)
  have e2 : Exact ((Flt.zero : F64) * y) 0 := mul_exact b64_p h0 hy h0 (by rw [Int.zero_mul, Int.zero_mul])
  have e3 := add_exact b64_p e2 e1 (by rw [Int.zero_add]; exact e1)
  rw [Int.zero_add] at e3
  have e4 := add_exact b64_p e3 hz (by rw [Int.add_zero]; exact e3)
  rw [Int.add_zero] at e4
  exact e4

theorem to32_exact {x : F64} {z : F32} {v : Int} (hz : Exact z v) (hx : Exact x (v * 2 ^ 925)) :
    Exact x.to32 v := by
  refine cast_exact b32_p hx hz ?_
  rw [show b64.u = 925 + 149 from rfl, show b32.u = 149 from rfl, Int.pow_add, Int.mul_assoc]

theorem identity_app32 {x y : F32} (hx : x.isFinite = true) (hy : y.isFinite = true) :
    (Affine.identity.app32 x y).1.feq x = true ∧ (Affine.identity.app32 x y).2.feq y = true := by
  have hx' := to64_exact (Exact.of_finite hx)
  have hy' := to64_exact (Exact.of_finite hy)
  have h0 : Exact (Flt.zero : F64) 0 := exact_zero (by decide)
  constructor
  · exact feq_of_exact b32_p (to32_exact (Exact.of_finite hx) (one_zero_zero hx' hy' h0)) (Exact.of_finite hx)
  · exact feq_of_exact b32_p (to32_exact (Exact.of_finite hy) (zero_one_zero hy' hx' h0)) (Exact.of_finite hy)

/-! ## Integers -/

theorem isInt_exact {f : Fmt} (hp : 1 ≤ f.p) (hinf : 2 ^ f.p * 2 ^ f.u < f.val f.inf) {x : Flt f} {i : Int}
    (hi : i.natAbs ≤ 2 ^ f.p) (h : Spec.IsInt x i) : Exact x (i * 2 ^ f.u) := by
  obtain ⟨z, hz⟩ := exists_int hp hinf hi
  exact exact_of_feq (ofInt_exact hp hz) h

theorem exact_isInt {f : Fmt} (hp : 1 ≤ f.p) {x : Flt f} {i : Int} (h : Exact x (i * 2 ^ f.u)) :
    Spec.IsInt x i := feq_of_exact hp h (ofInt_exact hp h)

theorem int_add {f : Fmt} (hp : 1 ≤ f.p) (hinf : 2 ^ f.p * 2 ^ f.u < f.val f.inf) {x y : Flt f} {i j : Int}
    (hx : Exact x (i * 2 ^ f.u)) (hy : Exact y (j * 2 ^ f.u)) (h : (i + j).natAbs ≤ 2 ^ f.p) :
    Exact (x + y) ((i + j) * 2 ^ f.u) := by
  obtain ⟨z, hz⟩ := exists_int hp hinf h
  rw [Int.add_mul] at hz ⊢
  exact add_exact hp hx hy hz

theorem int_mul {f : Fmt} (hp : 1 ≤ f.p) (hinf : 2 ^ f.p * 2 ^ f.u < f.val f.inf) {x y : Flt f} {i j : Int}
    (hx : Exact x (i * 2 ^ f.u)) (hy : Exact y (j * 2 ^ f.u)) (h : (i * j).natAbs ≤ 2 ^ f.p) :
    Exact (x * y) ((i * j) * 2 ^ f.u) := by
  obtain ⟨z, hz⟩ := exists_int hp hinf h
  refine mul_exact hp hx hy hz ?_
  generalize (2 : Int) ^ f.u = U
  rw [Int.mul_assoc, Int.mul_assoc, Int.mul_assoc, Int.mul_left_comm U j U]

theorem rne_scale (a b c : Nat) (hc : 0 < c) : rne (a * c) (b * c) = rne a b := by
  unfold rne
  rw [Nat.mul_mod_mul_right, Nat.mul_div_mul_right _ _ hc]
  have e1 : (2 * (a % b * c) < b * c) = (2 * (a % b) < b) := by
    rw [← Nat.mul_assoc]; exact propext (Nat.mul_lt_mul_right hc)
  have e2 : (b * c < 2 * (a % b * c)) = (b < 2 * (a % b)) := by
    rw [← Nat.mul_assoc]; exact propext (Nat.mul_lt_mul_right hc)
  simp only [e1, e2]

theorem round_scale (f : Fmt) (n d c : Nat) (hc : 0 < c) : f.round (n * c) (d * c) = f.round n d := by
  unfold Fmt.round Fmt.roundU
  simp only []
  have e : n * c * 2 ^ f.u = n * 2 ^ f.u * c := by rw [Nat.mul_right_comm]
  rw [e, Nat.mul_div_mul_right _ _ hc]
  rw [Nat.mul_right_comm d c, rne_scale _ _ _ hc]

/-- Converting an integer from `f64` to `f32` rounds it to the nearest `f32`. -/
theorem to32_of_int {x : F64} {i : Int} (hx : Exact x (i * 2 ^ b64.u)) :
    x.to32.normZero = (Flt.ofInt b32 i).normZero := by
  obtain ⟨s, k, hk, rfl, hkl⟩ := finite_num hx.1
  have hn : b64.val k = i.natAbs * 2 ^ b64.u := by
    rw [← sval_natAbs s k hk, hx.2, Int.natAbs_mul]
    congr 1
  unfold F64.to32 Flt.cast Flt.ofInt
  simp only [if_neg (Nat.ne_of_lt hkl)]
  have e : b32.round (b64.val k) (2 ^ b64.u) = b32.round i.natAbs 1 := by
    rw [hn]
    have := round_scale b32 i.natAbs 1 (2 ^ b64.u) (Nat.pow_pos (by decide))
    rwa [Nat.one_mul] at this
  unfold Flt.ofFrac
  simp only [e, Flt.normZero]
  by_cases h0 : i = 0
  · subst h0
    simp [Fl.Text.round_zero b32_p 1 (by decide)]
  · have hs : s = decide (i < 0) := by
      have h2 := hx.2
      simp only [Flt.sval] at h2
      rw [hn] at h2
      have hU : 0 < 2 ^ b64.u := Nat.pow_pos (by decide)
      have hUi : ((2 ^ b64.u : Nat) : Int) = 2 ^ b64.u := Int.natCast_pow 2 b64.u
      rw [← hUi, Int.natCast_mul] at h2
      clear hx e hn hUi
      generalize 2 ^ b64.u = U at h2 hU
      cases s with
      | true =>
        simp only [if_true] at h2
        have : 0 < (i.natAbs : Int) * (U : Int) := Int.mul_pos (by omega) (by omega)
        have hlt : i * (U : Int) < 0 := by omega
        have : i < 0 := by
          rcases Int.lt_or_le i 0 with h | h
          · exact h
          · have := Int.mul_nonneg h (Int.natCast_nonneg U); omega
        simp [this]
      | false =>
        simp only [Bool.false_eq_true, if_false] at h2
        have : 0 < (i.natAbs : Int) * (U : Int) := Int.mul_pos (by omega) (by omega)
        have : ¬ i < 0 := by
          intro h
          have := Int.mul_nonpos_of_nonpos_of_nonneg (Int.le_of_lt h) (Int.natCast_nonneg U)
          omega
        simp [this]
    rw [hs]

end GP
