import Verif.Float.Nearest
import Verif.Float.Arith
import Mathlib.Algebra.Order.Field.Basic
import Mathlib.Algebra.Order.Ring.Abs
import Mathlib.Algebra.Field.Rat
import Mathlib.Algebra.Order.Field.Rat
import Mathlib.Tactic.Linarith
import Mathlib.Tactic.Positivity
import Mathlib.Tactic.FieldSimp
import Mathlib.Tactic.NormNum
/-!
# How far the operations are from exact

The value of a finite float as a rational number, and the classical bound: an operation is off by at most
half a unit in the last place, that is `2^-p` of the exact result, or half the smallest positive float.
-/
namespace Fl
open Fmt

variable {f g : Fmt}

/-- The value of a finite float. -/
def Flt.toRat (x : Flt f) : ℚ := (x.sval : ℚ) / 2 ^ f.u

/-- `x` is finite and has the value `v`. -/
def Val (x : Flt f) (v : ℚ) : Prop := x.isFinite = true ∧ x.toRat = v

/-- `x` is finite and off from `v` by at most half a unit in the last place. -/
def Rounded (x : Flt f) (v : ℚ) : Prop :=
  x.isFinite = true ∧ |x.toRat - v| ≤ |v| / 2 ^ f.p + 1 / 2 ^ (f.u + 1)

/-- The gap above an ordinal. -/
theorem gap_le (hp : 1 ≤ f.p) (k : Nat) : (f.val (k + 1) - f.val k) * 2 ^ (f.p - 1) ≤ f.val k + 2 ^ (f.p - 1) := by
  have hpp := two_pow_p f hp
  obtain ⟨s, m, rfl, h1, h2⟩ := decomp f k
  have e1 := val_decomp f hp s m h1 (by omega)
  have e2 := val_decomp f hp s (m + 1) (h1.imp (fun h => by omega) id) (by omega)
  rw [Nat.add_assoc, e1, e2, Nat.add_mul, Nat.one_mul, Nat.add_sub_cancel_left]
  rcases h1 with h | h
  · have := Nat.mul_le_mul_right (2 ^ s) h
    rw [Nat.mul_comm] at this
    omega
  · subst h
    simp

/-- Rounding a fraction, as long as it does not overflow. -/
theorem round_err (hp : 2 ≤ f.p) (n d : Nat) (hd : 0 < d) (h : f.round n d < f.inf) :
    |(f.val (f.round n d) : ℚ) / 2 ^ f.u - n / d| ≤ (n / d : ℚ) / 2 ^ f.p + 1 / 2 ^ (f.u + 1) := by
  obtain ⟨k, r, D, hD, hr, e1, e2, e3⟩ := roundU_spec f hp n d hd
  have hround : f.round n d = f.roundU n d := by
    unfold Fmt.round at h ⊢
    omega
  rw [hround]
  have hgap := gap_le (f := f) (by omega) k
  have hpp := two_pow_p f (by omega)
  have hdq : (0 : ℚ) < d := by exact_mod_cast hd
  have hu : (0 : ℚ) < 2 ^ f.u := by positivity
  have hP : (0 : ℚ) < 2 ^ f.p := by positivity
  -- the error is at most half the gap
  have e1q : (n : ℚ) * 2 ^ f.u = f.val k * d + r := by exact_mod_cast e1
  have e2q : (f.val (k + 1) : ℚ) * d = f.val k * d + D := by exact_mod_cast e2
  have herr : |(f.val (f.roundU n d) : ℚ) * d - n * 2 ^ f.u| ≤ D / 2 := by
    have hup : ∀ r' : ℚ, r' = r → 0 ≤ r' → r' ≤ D / 2 → |(f.val k : ℚ) * d - n * 2 ^ f.u| ≤ D / 2 := by
      rintro r' rfl h0 h1
      rw [e1q, abs_le]
      constructor <;> linarith
    have hdn : (D : ℚ) / 2 ≤ r → |(f.val (k + 1) : ℚ) * d - n * 2 ^ f.u| ≤ D / 2 := by
      intro h1
      have : (r : ℚ) < D := by exact_mod_cast hr
      rw [e1q, e2q, abs_le]
      constructor <;> linarith
    have hr0 : (0 : ℚ) ≤ r := Nat.cast_nonneg r
    rw [e3]
    split
    · next c =>
      have : (2 * r : ℚ) < D := by exact_mod_cast c
      exact hup r rfl hr0 (by linarith)
    · next c =>
      have c' : (D : ℚ) ≤ 2 * r := by exact_mod_cast Nat.le_of_not_lt c
      split
      · exact hdn (by linarith)
      · next c2 =>
        have c2' : (2 * r : ℚ) ≤ D := by exact_mod_cast Nat.le_of_not_lt c2
        rcases Nat.mod_two_eq_zero_or_one k with hk | hk <;> rw [hk]
        · exact hup r rfl hr0 (by linarith)
        · exact hdn (by linarith)
  -- the gap is at most one unit in the last place
  have hv : f.val k ≤ f.val (k + 1) := Nat.le_of_lt (val_mono_step f (by omega) k)
  have hDg : (D : ℚ) = (f.val (k + 1) - f.val k) * d := by linarith
  have hgapq : ((f.val (k + 1) : ℚ) - f.val k) * 2 ^ f.p ≤ 2 * f.val k + 2 ^ f.p := by
    have h1 : (((f.val (k + 1) - f.val k) * 2 ^ (f.p - 1) : Nat) : ℚ) ≤ ((f.val k + 2 ^ (f.p - 1) : Nat) : ℚ) := by exact_mod_cast hgap
    have h2 : (2 : ℚ) ^ f.p = 2 * 2 ^ (f.p - 1) := by exact_mod_cast hpp
    push_cast [Nat.cast_sub hv] at h1
    rw [h2]
    linarith
  have hD2 : (D : ℚ) * 2 ^ f.p ≤ 2 * (n * 2 ^ f.u) + 2 ^ f.p * d := by
    have hr0 : (0 : ℚ) ≤ r := Nat.cast_nonneg r
    have := mul_le_mul_of_nonneg_right hgapq hdq.le
    rw [hDg, e1q]
    nlinarith
  have : |(f.val (f.roundU n d) : ℚ) / 2 ^ f.u - n / d| = |(f.val (f.roundU n d) : ℚ) * d - n * 2 ^ f.u| / (2 ^ f.u * d) := by
    rw [← abs_of_pos (mul_pos hu hdq), ← abs_div]
    congr 1
    field_simp
  rw [this, div_le_iff₀ (mul_pos hu hdq)]
  refine herr.trans ?_
  rw [show (n / d : ℚ) / 2 ^ f.p + 1 / 2 ^ (f.u + 1) = (2 * (n * 2 ^ f.u) + 2 ^ f.p * d) / (2 * 2 ^ f.p * (2 ^ f.u * d)) by
    rw [pow_succ]; field_simp]
  rw [div_mul_eq_mul_div, div_le_div_iff₀ (by norm_num) (by positivity)]
  have := mul_le_mul_of_nonneg_right hD2 (mul_pos hu hdq).le
  nlinarith

/-- A fraction that does not exceed a finite float is rounded to at most that float. -/
theorem round_le_of (hp : 2 ≤ f.p) {n d k : Nat} (hd : 0 < d) (h : n * 2 ^ f.u ≤ f.val k * d) : f.round n d ≤ k := by
  obtain ⟨j, r, D, hD, hr, e1, e2, e3⟩ := roundU_spec f hp n d hd
  have hU : f.roundU n d ≤ k := by
    have hj : j ≤ k := by
      apply Nat.le_of_not_lt
      intro hh
      have := Nat.mul_lt_mul_of_pos_right (val_strictMono f (by omega) hh) hd
      omega
    rcases Nat.lt_or_eq_of_le hj with hjk | rfl
    · rw [e3]
      split
      · omega
      · split <;> omega
    · have : r = 0 := by omega
      subst this
      rw [e3, if_pos (by omega)]
  unfold Fmt.round
  omega

/-- Rounding a whole number of smallest floats: no underflow. -/
theorem round_err_whole (hp : 2 ≤ f.p) (n d V : Nat) (hd : 0 < d) (h : f.round n d < f.inf) (hV : n * 2 ^ f.u = V * d) :
    |(f.val (f.round n d) : ℚ) / 2 ^ f.u - n / d| ≤ (n / d : ℚ) / 2 ^ f.p := by
  have hdq : (0 : ℚ) < d := by exact_mod_cast hd
  have hu : (0 : ℚ) < 2 ^ f.u := by positivity
  have hP : (0 : ℚ) < 2 ^ f.p := by positivity
  have hq : (n / d : ℚ) = V / 2 ^ f.u := by
    rw [div_eq_div_iff hdq.ne' hu.ne']
    exact_mod_cast hV
  rw [hq, ← sub_div, abs_div, abs_of_pos hu, div_right_comm]
  apply div_le_div_of_nonneg_right _ hu.le
  by_cases hsmall : V ≤ 2 ^ f.p
  · obtain ⟨k, hk⟩ := exists_val f (by omega) 0 V hsmall
    rw [Nat.pow_zero, Nat.mul_one] at hk
    have hr : f.roundU n d = k := roundU_val f (by omega) hd (by rw [hV, hk])
    have : f.round n d = k := by unfold Fmt.round at h ⊢; omega
    rw [this, hk, sub_self, abs_zero]
    positivity
  · obtain ⟨k, r, D, hD, hr, e1, e2, e3⟩ := roundU_spec f hp n d hd
    have hround : f.round n d = f.roundU n d := by
      unfold Fmt.round at h ⊢
      omega
    have hpp := two_pow_p f (by omega)
    -- the number is in the normal range
    have hbig : 2 ^ f.p ≤ f.val k := by
      obtain ⟨j, hj⟩ := exists_val f (by omega) 0 (2 ^ f.p) (Nat.le_refl _)
      rw [Nat.pow_zero, Nat.mul_one] at hj
      have h1 : f.val j < f.val (k + 1) := by
        rw [hj]
        apply Nat.lt_of_mul_lt_mul_right (a := d)
        have := Nat.mul_lt_mul_of_pos_right (Nat.lt_of_not_le hsmall) hd
        omega
      have h2 := (val_lt_iff f (by omega)).1 h1
      rw [← hj]
      rcases Nat.lt_or_eq_of_le (Nat.lt_succ_iff.1 h2) with h3 | h3
      · exact Nat.le_of_lt (val_strictMono f (by omega) h3)
      · rw [h3]
    have hgap : (f.val (k + 1) - f.val k) * 2 ^ (f.p - 1) ≤ f.val k := by
      obtain ⟨s, m, rfl, h1, h2⟩ := decomp f k
      have e1 := val_decomp f (by omega) s m h1 (by omega)
      have e2 := val_decomp f (by omega) s (m + 1) (h1.imp (fun h => by omega) id) (by omega)
      rw [Nat.add_assoc, e1, e2, Nat.add_mul, Nat.one_mul, Nat.add_sub_cancel_left]
      rcases h1 with h | h
      · have := Nat.mul_le_mul_right (2 ^ s) h
        rwa [Nat.mul_comm] at this
      · subst h
        rw [e1] at hbig
        simp at hbig ⊢
        omega
    have hD1 : V * d = f.val k * d + r := by rw [← hV]; exact e1
    have hDV : D * 2 ^ f.p ≤ 2 * (V * d) := by
      have hv : f.val k ≤ f.val (k + 1) := Nat.le_of_lt (val_mono_step f (by omega) k)
      have : D = (f.val (k + 1) - f.val k) * d := by rw [Nat.sub_mul]; omega
      have h3 := Nat.mul_le_mul_right d hgap
      rw [this, hpp, Nat.mul_right_comm, ← Nat.mul_assoc, Nat.mul_right_comm _ 2, Nat.mul_comm _ 2, Nat.mul_assoc]
      omega
    have e2q : (f.val (k + 1) : ℚ) * d = f.val k * d + D := by exact_mod_cast e2
    have hD1q : (V : ℚ) * d = f.val k * d + r := by exact_mod_cast hD1
    have hrq : (r : ℚ) < D := by exact_mod_cast hr
    have hr0 : (0 : ℚ) ≤ r := Nat.cast_nonneg r
    have herr : |(f.val (f.roundU n d) : ℚ) - V| * d ≤ D / 2 := by
      rw [← abs_of_pos hdq, ← abs_mul, sub_mul, hD1q, abs_le]
      have hup : (r : ℚ) ≤ D / 2 → -(D / 2 : ℚ) ≤ f.val k * d - (f.val k * d + r) ∧ (f.val k : ℚ) * d - (f.val k * d + r) ≤ D / 2 := by
        intro h1
        constructor <;> linarith
      have hdn : (D : ℚ) / 2 ≤ r → -(D / 2 : ℚ) ≤ f.val (k + 1) * d - (f.val k * d + r) ∧
          (f.val (k + 1) : ℚ) * d - (f.val k * d + r) ≤ D / 2 := by
        intro h1
        rw [e2q]
        constructor <;> linarith
      rw [e3]
      split
      · next c =>
        have : (2 * r : ℚ) < D := by exact_mod_cast c
        exact hup (by linarith)
      · next c =>
        have c' : (D : ℚ) ≤ 2 * r := by exact_mod_cast Nat.le_of_not_lt c
        split
        · exact hdn (by linarith)
        · next c2 =>
          have c2' : (2 * r : ℚ) ≤ D := by exact_mod_cast Nat.le_of_not_lt c2
          rcases Nat.mod_two_eq_zero_or_one k with hk | hk <;> rw [hk]
          · exact hup (by linarith)
          · exact hdn (by linarith)
    rw [hround, le_div_iff₀ hP]
    have hDVq : (D : ℚ) * 2 ^ f.p ≤ 2 * (V * d) := by exact_mod_cast hDV
    have h4 := mul_le_mul_of_nonneg_right herr hP.le
    have h5 : |(f.val (f.roundU n d) : ℚ) - V| * 2 ^ f.p * d ≤ V * d := by
      calc |(f.val (f.roundU n d) : ℚ) - V| * 2 ^ f.p * d = |(f.val (f.roundU n d) : ℚ) - V| * d * 2 ^ f.p := by
            rw [mul_right_comm]
        _ ≤ D / 2 * 2 ^ f.p := h4
        _ ≤ V * d := by linarith
    exact le_of_mul_le_mul_right h5 hdq

/-- The largest finite float. -/
def Fmt.largest (f : Fmt) : ℚ := f.val (f.inf - 1) / 2 ^ f.u

/-- A fraction with a sign. -/
theorem ofFrac_rounded (hp : 2 ≤ f.p) (hi : 0 < f.inf) (s : Bool) {n d : Nat} (hd : 0 < d) (h : (n / d : ℚ) ≤ f.largest) :
    Rounded (Flt.ofFrac f s n d) (if s then -(n / d : ℚ) else n / d) := by
  have hdq : (0 : ℚ) < d := by exact_mod_cast hd
  have hu : (0 : ℚ) < 2 ^ f.u := by positivity
  have hle : f.round n d ≤ f.inf - 1 := by
    apply round_le_of hp hd
    unfold Fmt.largest at h
    rw [div_le_div_iff₀ hdq hu] at h
    exact_mod_cast h
  have hlt : f.round n d < f.inf := by omega
  refine ⟨by simp [Flt.ofFrac, Flt.isFinite, hlt], ?_⟩
  have he := round_err hp n d hd hlt
  have h0 : (0 : ℚ) ≤ n / d := by positivity
  have hcast : (Flt.ofFrac f s n d).toRat = if s then -((f.val (f.round n d) : ℚ) / 2 ^ f.u) else (f.val (f.round n d) : ℚ) / 2 ^ f.u := by
    unfold Flt.toRat Flt.ofFrac Flt.sval
    cases s
    · simp
    · simp [neg_div]
  rw [hcast]
  cases s
  · simp only [Bool.false_eq_true, if_false]
    rw [abs_of_nonneg h0]
    exact he
  · simp only [if_true]
    rw [abs_neg, abs_of_nonneg h0, ← neg_sub', abs_neg]
    exact he

theorem toRat_num (s : Bool) (k : Nat) (h : k ≤ f.inf) :
    Flt.toRat (.num s k h) = if s then -((f.val k : ℚ) / 2 ^ f.u) else (f.val k : ℚ) / 2 ^ f.u := by
  unfold Flt.toRat Flt.sval
  cases s
  · simp
  · simp [neg_div]

theorem abs_toRat_num (s : Bool) (k : Nat) (h : k ≤ f.inf) : |Flt.toRat (.num s k h)| = (f.val k : ℚ) / 2 ^ f.u := by
  rw [toRat_num]
  have : (0 : ℚ) ≤ (f.val k : ℚ) / 2 ^ f.u := by positivity
  cases s
  · simp only [Bool.false_eq_true, if_false, abs_of_nonneg this]
  · simp only [if_true, abs_neg, abs_of_nonneg this]

/-- `x` is finite and off from `v` by at most a fraction of `2^-p`. -/
def Close (x : Flt f) (v : ℚ) : Prop := x.isFinite = true ∧ |x.toRat - v| ≤ |v| / 2 ^ f.p

theorem Close.rounded {x : Flt f} {v : ℚ} (h : Close x v) : Rounded x v :=
  ⟨h.1, h.2.trans (le_add_of_nonneg_right (by positivity))⟩

/-- Addition. -/
theorem add_close (hp : 2 ≤ f.p) (hi : 0 < f.inf) {x y : Flt f} (hx : x.isFinite = true) (hy : y.isFinite = true)
    (h : |x.toRat + y.toRat| ≤ f.largest) : Close (x.add y) (x.toRat + y.toRat) := by
  have hu : (0 : ℚ) < 2 ^ f.u := by positivity
  have hv : x.toRat + y.toRat = ((x.sval + y.sval : Int) : ℚ) / 2 ^ f.u := by
    unfold Flt.toRat
    push_cast
    rw [add_div]
  obtain ⟨s, k, hk, rfl, hkl⟩ := finite_num hx
  obtain ⟨s', k', hk', rfl, hkl'⟩ := finite_num hy
  rw [hv] at h ⊢
  unfold Flt.add
  simp only [if_neg (Nat.ne_of_lt hkl), if_neg (Nat.ne_of_lt hkl')]
  generalize (Flt.num s k hk : Flt f).sval + (Flt.num s' k' hk' : Flt f).sval = v at *
  split
  · next h0 =>
    subst h0
    have hz : ∀ z : Flt f, z = Flt.negZero ∨ z = Flt.zero → Close z (((0 : Int) : ℚ) / 2 ^ f.u) := by
      rintro z (rfl | rfl)
      · refine ⟨by simp [Flt.isFinite, Flt.negZero, hi], ?_⟩
        simp [Flt.negZero, toRat_num, val_zero]
      · refine ⟨by simp [Flt.isFinite, Flt.zero, hi], ?_⟩
        simp [Flt.zero, toRat_num, val_zero]
    apply hz
    split
    · exact Or.inl rfl
    · exact Or.inr rfl
  · have hn : ((v.natAbs : Nat) : ℚ) / ((2 ^ f.u : Nat) : ℚ) = |(v : ℚ) / 2 ^ f.u| := by
      rw [abs_div, abs_of_pos hu, Nat.cast_natAbs]
      push_cast
      rfl
    have hd : 0 < 2 ^ f.u := Nat.pow_pos (by decide)
    have hfin := (ofFrac_rounded hp hi (decide (v < 0)) (n := v.natAbs) (d := 2 ^ f.u) hd (hn ▸ h)).1
    have hlt : f.round v.natAbs (2 ^ f.u) < f.inf := by simpa [Flt.ofFrac, Flt.isFinite] using hfin
    have he := round_err_whole hp v.natAbs (2 ^ f.u) v.natAbs hd hlt rfl
    refine ⟨hfin, ?_⟩
    rw [hn] at he
    unfold Flt.ofFrac
    rw [toRat_num]
    by_cases hneg : v < 0
    · have hlt0 : (v : ℚ) / 2 ^ f.u < 0 := div_neg_of_neg_of_pos (by exact_mod_cast hneg) hu
      simp only [hneg, decide_true, if_true]
      rw [abs_of_neg hlt0] at he ⊢
      rw [← abs_neg, neg_sub', neg_neg]
      exact he
    · have hge0 : 0 ≤ (v : ℚ) / 2 ^ f.u := div_nonneg (by exact_mod_cast Int.not_lt.1 hneg) hu.le
      simp only [hneg, decide_false, Bool.false_eq_true, if_false]
      rw [abs_of_nonneg hge0] at he ⊢
      exact he

theorem add_rounded (hp : 2 ≤ f.p) (hi : 0 < f.inf) {x y : Flt f} (hx : x.isFinite = true) (hy : y.isFinite = true)
    (h : |x.toRat + y.toRat| ≤ f.largest) : Rounded (x.add y) (x.toRat + y.toRat) := (add_close hp hi hx hy h).rounded

theorem toRat_neg (x : Flt f) : x.neg.toRat = - x.toRat := by
  cases x with
  | nan => simp [Flt.neg, Flt.toRat, Flt.sval]
  | num s k h =>
    unfold Flt.neg
    rw [toRat_num, toRat_num]
    cases s <;> simp

theorem isFinite_neg (x : Flt f) : x.neg.isFinite = x.isFinite := by
  cases x <;> rfl

/-- Subtraction. -/
theorem sub_close (hp : 2 ≤ f.p) (hi : 0 < f.inf) {x y : Flt f} (hx : x.isFinite = true) (hy : y.isFinite = true)
    (h : |x.toRat - y.toRat| ≤ f.largest) : Close (x.sub y) (x.toRat - y.toRat) := by
  have := add_close hp hi hx (y := y.neg) (by rw [isFinite_neg]; exact hy) (by rw [toRat_neg, ← sub_eq_add_neg]; exact h)
  rw [toRat_neg, ← sub_eq_add_neg] at this
  exact this

/-- Multiplication. -/
theorem mul_rounded (hp : 2 ≤ f.p) (hi : 0 < f.inf) {x y : Flt f} (hx : x.isFinite = true) (hy : y.isFinite = true)
    (h : |x.toRat * y.toRat| ≤ f.largest) : Rounded (x.mul y) (x.toRat * y.toRat) := by
  obtain ⟨s, k, hk, rfl, hkl⟩ := finite_num hx
  obtain ⟨s', k', hk', rfl, hkl'⟩ := finite_num hy
  have hn : (((f.val k * f.val k' : Nat)) : ℚ) / ((2 ^ f.u * 2 ^ f.u : Nat) : ℚ) = (f.val k : ℚ) / 2 ^ f.u * ((f.val k' : ℚ) / 2 ^ f.u) := by
    push_cast
    rw [div_mul_div_comm]
  rw [abs_mul, abs_toRat_num, abs_toRat_num, ← hn] at h
  have := ofFrac_rounded hp hi (s != s') (Nat.mul_pos (Nat.pow_pos (n := f.u) (by decide : 0 < 2)) (Nat.pow_pos (n := f.u) (by decide : 0 < 2))) h
  unfold Flt.mul
  simp only [if_neg (Nat.ne_of_lt hkl), if_neg (Nat.ne_of_lt hkl')]
  convert this using 1
  rw [hn, toRat_num, toRat_num]
  cases s <;> cases s' <;> simp

/-- Conversion. -/
theorem cast_rounded (hp : 2 ≤ g.p) (hi : 0 < g.inf) {x : Flt f} (hx : x.isFinite = true) (h : |x.toRat| ≤ g.largest) :
    Rounded (Flt.cast g x) x.toRat := by
  obtain ⟨s, k, hk, rfl, hkl⟩ := finite_num hx
  rw [abs_toRat_num] at h
  have hn : ((f.val k : Nat) : ℚ) / ((2 ^ f.u : Nat) : ℚ) = (f.val k : ℚ) / 2 ^ f.u := by push_cast; rfl
  rw [← hn] at h
  have := ofFrac_rounded hp hi s (Nat.pow_pos (n := f.u) (by decide : 0 < 2)) h
  unfold Flt.cast
  simp only [if_neg (Nat.ne_of_lt hkl)]
  convert this using 1
  rw [hn, toRat_num]

/-- Widening is exact. -/
theorem to64_val {x : F32} (hx : x.isFinite = true) : Val x.to64 x.toRat := by
  have := to64_exact (Exact.of_finite hx)
  refine ⟨this.1, ?_⟩
  unfold Flt.toRat
  rw [this.2]
  push_cast
  rw [show b64.u = b32.u + 925 from rfl, pow_add]
  have h1 : (2 : ℚ) ^ b32.u ≠ 0 := by positivity
  have h2 : (2 : ℚ) ^ 925 ≠ 0 := pow_ne_zero _ (by norm_num)
  rw [mul_div_mul_right _ _ h2]

theorem toRat_exact {x : Flt f} {i : Int} (h : Exact x (i * 2 ^ f.u)) : Val x i := by
  refine ⟨h.1, ?_⟩
  unfold Flt.toRat
  rw [h.2]
  push_cast
  exact mul_div_cancel_right₀ _ (by positivity)

/-- Integers that are `f32`s, and integers that are `f64`s. -/
theorem val_int32 {i : Int} (h : i.natAbs ≤ 16777216) : Val (Flt.ofInt b32 i) i := toRat_exact (ofInt_exact32 h)

theorem val_int64 {i : Int} (h : i.natAbs ≤ 9007199254740992) : Val (Flt.ofInt b64 i) i := toRat_exact (ofInt_exact64 h)

theorem b32_largest : (2 : ℚ) ^ 127 ≤ b32.largest := by
  unfold Fmt.largest
  rw [le_div_iff₀ (by positivity)]
  have : 2 ^ 127 * 2 ^ b32.u ≤ b32.val (b32.inf - 1) := by decide +kernel
  exact_mod_cast this

theorem b64_largest : (2 : ℚ) ^ 1023 ≤ b64.largest := by
  unfold Fmt.largest
  rw [le_div_iff₀ (by positivity)]
  have : 2 ^ 1023 * 2 ^ b64.u ≤ b64.val (b64.inf - 1) := by decide +kernel
  exact_mod_cast this

end Fl
