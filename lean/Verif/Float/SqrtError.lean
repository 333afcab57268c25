import Verif.Float.Error
import Verif.Float.Sqrt
import Mathlib.Tactic.Ring
/-!
# Comparison, quotient and square root against the rationals
-/
namespace Fl
open Fmt

variable {f : Fmt}

/-- Comparison of finite floats is that of their values. -/
theorem fle_iff (hp : 1 ≤ f.p) {x y : Flt f} (hx : x.isFinite = true) (hy : y.isFinite = true) :
    x.fle y = true ↔ x.toRat ≤ y.toRat := by
  have hu : (0 : ℚ) < 2 ^ f.u := by positivity
  unfold Flt.toRat
  rw [div_le_div_iff_of_pos_right hu, Int.cast_le]
  obtain ⟨s, j, hj, rfl, -⟩ := finite_num hx
  obtain ⟨t, k, hk, rfl, -⟩ := finite_num hy
  have h1 := val_lt_iff f hp (a := j) (b := k)
  have h2 := val_lt_iff f hp (a := k) (b := j)
  have h3 : f.val j = 0 ↔ j = 0 := ⟨fun h => val_inj f hp (h.trans (val_zero f).symm), fun h => by rw [h, val_zero]⟩
  have h4 : f.val k = 0 ↔ k = 0 := ⟨fun h => val_inj f hp (h.trans (val_zero f).symm), fun h => by rw [h, val_zero]⟩
  unfold Flt.fle Flt.flt Flt.feq Flt.sval
  dsimp only
  generalize f.val j = a at *
  generalize f.val k = b at *
  cases s <;> cases t <;>
    simp only [Bool.or_eq_true, Bool.and_eq_true, decide_eq_true_eq, beq_iff_eq, Bool.false_eq_true, if_true, if_false,
      false_or, true_or, and_true, reduceCtorEq] <;> omega

/-- Division. -/
theorem div_rounded (hp : 2 ≤ f.p) (hi : 0 < f.inf) {x y : Flt f} (hx : x.isFinite = true) (hy : y.isFinite = true)
    (h0 : y.toRat ≠ 0) (h : |x.toRat / y.toRat| ≤ f.largest) : Rounded (x.div y) (x.toRat / y.toRat) := by
  have hu : (0 : ℚ) < 2 ^ f.u := by positivity
  obtain ⟨s, k, hk, rfl, hkl⟩ := finite_num hx
  obtain ⟨s', k', hk', rfl, hkl'⟩ := finite_num hy
  have hk0 : k' ≠ 0 := by
    rintro rfl
    apply h0
    rw [toRat_num, val_zero]
    simp
  have hpos := val_pos f (by omega) (Nat.pos_of_ne_zero hk0)
  have hposq : (0 : ℚ) < f.val k' := by exact_mod_cast hpos
  have hn : (f.val k : ℚ) / 2 ^ f.u / ((f.val k' : ℚ) / 2 ^ f.u) = (f.val k : ℚ) / f.val k' :=
    div_div_div_cancel_right₀ (ne_of_gt hu) _ _
  rw [abs_div, abs_toRat_num, abs_toRat_num, hn] at h
  have := ofFrac_rounded hp hi (s != s') hpos h
  unfold Flt.div
  simp only [if_neg (Nat.ne_of_lt hkl), if_neg (Nat.ne_of_lt hkl'), if_neg hk0]
  convert this using 1
  rw [← hn, toRat_num, toRat_num]
  cases s <;> cases s' <;> simp [neg_div, div_neg]

/-- Square root of a number that is not too large: close to the integer part `q` of the root, in units of `2^-u`. -/
theorem sqrt_close (hp : 2 ≤ f.p) (hi : 0 < f.inf) {x : Flt f} (hx : x.isFinite = true) (h0 : 0 ≤ x.toRat)
    {B : ℚ} (hB : 0 ≤ B) (hxB : x.toRat ≤ B ^ 2) (hl : B + 1 ≤ f.largest) :
    x.sqrt.isFinite = true ∧ 0 ≤ x.sqrt.toRat ∧ ∃ q : ℚ, 0 ≤ q ∧ q ^ 2 ≤ x.toRat ∧ x.toRat ≤ (q + 1 / 2 ^ f.u) ^ 2 ∧
      |x.sqrt.toRat - q| ≤ (q + 1 / 2 ^ f.u) / 2 ^ f.p + 2 / 2 ^ f.u := by
  have hu : (0 : ℚ) < 2 ^ f.u := by positivity
  obtain ⟨s, k, hk, rfl, hkl⟩ := finite_num hx
  unfold Flt.sqrt
  by_cases hk0 : k = 0
  · subst hk0
    have hv : (Flt.num s 0 hk : Flt f).toRat = 0 := by
      rw [toRat_num, val_zero]
      simp
    simp only [if_true]
    refine ⟨hx, h0, 0, le_refl _, ?_, ?_, ?_⟩
    · rw [hv]; simp
    · rw [hv]; positivity
    · rw [hv]; simp; positivity
  · simp only [if_neg hk0, if_neg (Nat.ne_of_lt hkl)]
    have hpos := val_pos f (by omega) (Nat.pos_of_ne_zero hk0)
    cases s with
    | true =>
      exfalso
      rw [toRat_num] at h0
      have : (0 : ℚ) < (f.val k : ℚ) / 2 ^ f.u := by positivity
      simp only [if_true] at h0
      linarith
    | false =>
      simp only [Bool.false_eq_true, if_false]
      rw [toRat_num] at h0 hxB ⊢
      simp only [Bool.false_eq_true, if_false] at h0 hxB ⊢
      generalize hn : f.val k * 2 ^ f.u = n
      have hxn : (f.val k : ℚ) / 2 ^ f.u = n / (2 ^ f.u) ^ 2 := by
        rw [← hn]
        push_cast
        field_simp
      rw [hxn] at hxB ⊢
      have hq1 : Nat.sqrt n * Nat.sqrt n ≤ n := Nat.sqrt_le n
      have hq2 : n < (Nat.sqrt n + 1) * (Nat.sqrt n + 1) := Nat.lt_succ_sqrt n
      generalize Nat.sqrt n = q at *
      -- the number that is rounded
      generalize hm : (if q * q = n then 2 * q else 2 * q + 1) = m
      have hm1 : 2 * q ≤ m := by rw [← hm]; split <;> omega
      have hm2 : m ≤ 2 * q + 1 := by rw [← hm]; split <;> omega
      have hm1q : 2 * (q : ℚ) ≤ m := by exact_mod_cast hm1
      have hm2q : (m : ℚ) ≤ 2 * q + 1 := by exact_mod_cast hm2
      have hq1q : (q : ℚ) * q ≤ n := by exact_mod_cast hq1
      have hq2q : (n : ℚ) ≤ (q + 1) * (q + 1) := by exact_mod_cast hq2.le
      have hqB : (q : ℚ) / 2 ^ f.u ≤ B := by
        apply le_of_sq_le_sq _ hB
        refine le_trans ?_ hxB
        rw [div_pow]
        apply div_le_div_of_nonneg_right _ (by positivity)
        rw [sq]
        exact hq1q
      have hd : (0 : ℕ) < 2 ^ (f.u + 1) := by positivity
      have hmq : (m : ℚ) / ((2 ^ (f.u + 1) : ℕ) : ℚ) ≤ (q : ℚ) / 2 ^ f.u + 1 / 2 ^ f.u ∧ (q : ℚ) / 2 ^ f.u ≤ (m : ℚ) / ((2 ^ (f.u + 1) : ℕ) : ℚ) := by
        push_cast
        rw [pow_succ, ← add_div]
        constructor
        · rw [div_le_div_iff₀ (by positivity) hu]
          nlinarith
        · rw [div_le_div_iff₀ hu (by positivity)]
          nlinarith
      have h1u : (1 : ℚ) / 2 ^ f.u ≤ 1 := by
        rw [div_le_one hu]
        exact one_le_pow₀ (by norm_num)
      have hr := ofFrac_rounded hp hi false hd (n := m) (by linarith [hmq.1])
      simp only [Bool.false_eq_true, if_false] at hr
      obtain ⟨hr1, hr2⟩ := hr
      have hr0 : 0 ≤ (Flt.ofFrac f false m (2 ^ (f.u + 1))).toRat := by
        unfold Flt.ofFrac
        rw [toRat_num]
        simp only [Bool.false_eq_true, if_false]
        positivity
      refine ⟨hr1, hr0, (q : ℚ) / 2 ^ f.u, by positivity, ?_, ?_, ?_⟩
      · rw [div_pow]
        apply div_le_div_of_nonneg_right _ (by positivity)
        rw [sq]
        exact hq1q
      · rw [← add_div, div_pow]
        apply div_le_div_of_nonneg_right _ (by positivity)
        rw [sq]
        exact hq2q
      · have hmn : (0 : ℚ) ≤ (m : ℚ) / ((2 ^ (f.u + 1) : ℕ) : ℚ) := by positivity
        rw [abs_of_nonneg hmn] at hr2
        have hh : (1 : ℚ) / 2 ^ (f.u + 1) ≤ 1 / 2 ^ f.u := by
          rw [pow_succ]
          apply one_div_le_one_div_of_le hu
          linarith
        have hP : (0 : ℚ) < 2 ^ f.p := by positivity
        have hmp : (m : ℚ) / ((2 ^ (f.u + 1) : ℕ) : ℚ) / 2 ^ f.p ≤ ((q : ℚ) / 2 ^ f.u + 1 / 2 ^ f.u) / 2 ^ f.p :=
          div_le_div_of_nonneg_right hmq.1 hP.le
        rw [abs_le] at hr2 ⊢
        have e2 : (2 : ℚ) / 2 ^ f.u = 1 / 2 ^ f.u + 1 / 2 ^ f.u := by ring
        rw [e2]
        constructor <;> linarith [hmq.1, hmq.2, hr2.1, hr2.2]

end Fl
