import Verif.Lemmas.SmoothReal
import Verif.Float.SqrtError
import Verif.Model.Smooth
import Verif.Spec.Smooth
/-!
# The distance test of `kurbo`, operation by operation
-/
open Fl
namespace GP
open Spec

set_option exponentiation.threshold 600

theorem tiny250 : (1 : ℚ) / 2 ^ (b64.u + 1) ≤ 1 / 2 ^ 250 :=
  one_div_le_one_div_of_le (by positivity) (pow_le_pow_right₀ (by norm_num) (by decide))

theorem unit250 : (1 : ℚ) / 2 ^ b64.u ≤ 1 / 2 ^ 250 :=
  one_div_le_one_div_of_le (by positivity) (pow_le_pow_right₀ (by norm_num) (by decide))

theorem b64_400 : (2 : ℚ) ^ 400 ≤ b64.largest := le_trans (pow_le_pow_right₀ (by norm_num) (by norm_num)) b64_largest

theorem off_of {x : F64} {v : ℚ} (h : Rounded x v) : Off x.toRat v := by
  replace h := h.2
  have := tiny250
  unfold Off
  change |x.toRat - v| ≤ |v| / 2 ^ 53 + _ at h
  linarith

theorem mul_off {x y : F64} (hx : x.isFinite = true) (hy : y.isFinite = true) (h : |x.toRat * y.toRat| ≤ 2 ^ 400) :
    (x.mul y).isFinite = true ∧ Off (x.mul y).toRat (x.toRat * y.toRat) := by
  have := mul_rounded (by decide) (by decide) hx hy (h.trans b64_400)
  exact ⟨this.1, off_of this⟩

theorem add_off {x y : F64} (hx : x.isFinite = true) (hy : y.isFinite = true) (h : |x.toRat + y.toRat| ≤ 2 ^ 400) :
    (x.add y).isFinite = true ∧ |(x.add y).toRat - (x.toRat + y.toRat)| ≤ |x.toRat + y.toRat| / 2 ^ 53 :=
  add_close (by decide) (by decide) hx hy (h.trans b64_400)

theorem sub_off {x y : F64} (hx : x.isFinite = true) (hy : y.isFinite = true) (h : |x.toRat - y.toRat| ≤ 2 ^ 400) :
    (x.sub y).isFinite = true ∧ |(x.sub y).toRat - (x.toRat - y.toRat)| ≤ |x.toRat - y.toRat| / 2 ^ 53 :=
  sub_close (by decide) (by decide) hx hy (h.trans b64_400)

theorem mul_self_toRat {x : F64} (hx : x.isFinite = true) : 0 ≤ (x.mul x).toRat := by
  obtain ⟨s, k, hk, rfl, hkl⟩ := finite_num hx
  unfold Flt.mul
  simp only [if_neg (Nat.ne_of_lt hkl), bne_self_eq_false]
  unfold Flt.ofFrac
  rw [toRat_num]
  simp only [Bool.false_eq_true, if_false]
  exact div_nonneg (Nat.cast_nonneg _) (pow_nonneg (by norm_num) _)

/-- A quotient below one is not rounded above one. -/
theorem div_unit {x y : F64} (hx : x.isFinite = true) (hy : y.isFinite = true) (h0 : 0 < x.toRat) (h : x.toRat < y.toRat) :
    (x.div y).isFinite = true ∧ 0 ≤ (x.div y).toRat ∧ (x.div y).toRat ≤ 1 ∧ Off (x.div y).toRat (x.toRat / y.toRat) := by
  have hy0 : 0 < y.toRat := h0.trans h
  have hq : |x.toRat / y.toRat| ≤ 1 := by
    rw [abs_of_nonneg (div_nonneg h0.le hy0.le), div_le_one hy0]
    exact h.le
  have hr := div_rounded (by decide) (by decide) hx hy hy0.ne' (hq.trans ((one_le_pow₀ (by norm_num)).trans b64_400))
  refine ⟨hr.1, ?_, ?_, off_of hr⟩
  all_goals
    obtain ⟨s, k, hk, rfl, hkl⟩ := finite_num hx
    obtain ⟨s', k', hk', rfl, hkl'⟩ := finite_num hy
    have hs : s = false := by
      rw [toRat_num] at h0
      have : (0 : ℚ) ≤ (b64.val k : ℚ) / 2 ^ b64.u := by positivity
      cases s
      · rfl
      · simp only [if_true] at h0; linarith
    have hs' : s' = false := by
      rw [toRat_num] at hy0
      have : (0 : ℚ) ≤ (b64.val k' : ℚ) / 2 ^ b64.u := by positivity
      cases s'
      · rfl
      · simp only [if_true] at hy0; linarith
    subst hs hs'
    have hk0 : k' ≠ 0 := by
      rintro rfl
      rw [toRat_num, Fmt.val_zero] at hy0
      simp at hy0
    unfold Flt.div
    simp only [if_neg (Nat.ne_of_lt hkl), if_neg (Nat.ne_of_lt hkl'), if_neg hk0, bne_self_eq_false]
    unfold Flt.ofFrac
    rw [toRat_num]
    simp only [Bool.false_eq_true, if_false]
  · positivity
  · rw [toRat_num, toRat_num] at h
    simp only [Bool.false_eq_true, if_false] at h
    have hu : (0 : ℚ) < 2 ^ b64.u := by positivity
    rw [div_lt_div_iff_of_pos_right hu, Nat.cast_lt] at h
    have hone : b64.val 4607182418800017408 = 2 ^ b64.u := by decide +kernel
    have hle : b64.round (b64.val k) (b64.val k') ≤ 4607182418800017408 := by
      apply round_le_of (by decide) (by omega)
      rw [hone, Nat.mul_comm]
      exact Nat.mul_le_mul_left _ h.le
    rw [div_le_one hu]
    have hv : b64.val (b64.round (b64.val k) (b64.val k')) ≤ b64.val 4607182418800017408 := by
      rcases Nat.lt_or_eq_of_le hle with hh | hh
      · exact (Fmt.val_strictMono b64 (by decide) hh).le
      · rw [hh]
    rw [hone] at hv
    exact_mod_cast hv

/-- A sum of two squares, its root and the comparison. -/
theorem dist_test {c d w : F64} (hc : c.isFinite = true) (hd : d.isFinite = true) (hw : w.isFinite = true)
    (bc : |c.toRat| ≤ 2 ^ 140) (bd : |d.toRat| ≤ 2 ^ 140) :
    (Flt.fle (Kurbo.dot (c, d) (c, d)).sqrt w = true →
      0 ≤ w.toRat ∧ c.toRat ^ 2 + d.toRat ^ 2 ≤ (w.toRat + w.toRat / 2 ^ 49 + 1 / 2 ^ 120) ^ 2) ∧
    (∀ R : ℚ, 0 ≤ R → c.toRat ^ 2 + d.toRat ^ 2 ≤ R ^ 2 → R + R / 2 ^ 50 + 1 / 2 ^ 120 ≤ w.toRat →
      Flt.fle (Kurbo.dot (c, d) (c, d)).sqrt w = true) := by
  have sc : c.toRat ^ 2 ≤ 2 ^ 280 := by
    rw [← sq_abs]
    calc |c.toRat| ^ 2 ≤ (2 ^ 140) ^ 2 := pow_le_pow_left₀ (abs_nonneg _) bc 2
      _ = 2 ^ 280 := by rw [← pow_mul]
  have sd : d.toRat ^ 2 ≤ 2 ^ 280 := by
    rw [← sq_abs]
    calc |d.toRat| ^ 2 ≤ (2 ^ 140) ^ 2 := pow_le_pow_left₀ (abs_nonneg _) bd 2
      _ = 2 ^ 280 := by rw [← pow_mul]
  have ec : |c.toRat * c.toRat| = c.toRat ^ 2 := by rw [← sq, abs_of_nonneg (sq_nonneg _)]
  have ed : |d.toRat * d.toRat| = d.toRat ^ 2 := by rw [← sq, abs_of_nonneg (sq_nonneg _)]
  have h400 : (2 : ℚ) ^ 283 ≤ 2 ^ 400 := pow_le_pow_right₀ (by norm_num) (by norm_num)
  have e283 : (2 : ℚ) ^ 283 = 8 * 2 ^ 280 := by norm_num
  have p280 : (1 : ℚ) ≤ 2 ^ 280 := one_le_pow₀ (by norm_num)
  obtain ⟨fm, hm⟩ := mul_off hc hc (by rw [ec]; linarith)
  obtain ⟨fn, hn⟩ := mul_off hd hd (by rw [ed]; linarith)
  have m0 := mul_self_toRat hc
  have n0 := mul_self_toRat hd
  have bm := abs_near hm
  have bn := abs_near hn
  rw [ec, abs_of_nonneg m0] at bm
  rw [ed, abs_of_nonneg n0] at bn
  have hmn : |(c.mul c).toRat + (d.mul d).toRat| ≤ 2 ^ 283 := by
    rw [abs_of_nonneg (add_nonneg m0 n0), e283]
    norm_num at bm bn ⊢
    norm_num at sc sd
    linarith
  obtain ⟨fs, hs⟩ := add_off fm fn (hmn.trans h400)
  have he := dot_error hm hn hs
  rw [ec, ed, ← sq, ← sq] at he
  have s0 : 0 ≤ ((c.mul c).add (d.mul d)).toRat := by
    have := (abs_le.1 hs).1
    rw [abs_of_nonneg (add_nonneg m0 n0)] at this
    have : ((c.mul c).toRat + (d.mul d).toRat) / 2 ^ 53 ≤ (c.mul c).toRat + (d.mul d).toRat :=
      div_le_self (add_nonneg m0 n0) (one_le_pow₀ (by norm_num))
    linarith
  have sB : ((c.mul c).add (d.mul d)).toRat ≤ (2 ^ 143) ^ 2 := by
    have h1 := (abs_le.1 he).2
    have : ((2 : ℚ) ^ 143) ^ 2 = 64 * 2 ^ 280 := by norm_num
    rw [this]
    have hz : (c.toRat ^ 2 + d.toRat ^ 2) / 2 ^ 51 ≤ c.toRat ^ 2 + d.toRat ^ 2 := div_le_self (by positivity) (one_le_pow₀ (by norm_num))
    have hz2 : (1 : ℚ) / 2 ^ 248 ≤ 1 := by norm_num
    linarith
  have e0 : Kurbo.dot (c, d) (c, d) = (c.mul c).add (d.mul d) := rfl
  rw [e0]
  generalize (c.mul c).add (d.mul d) = S at *
  obtain ⟨fr, r0, q, q0, hq1, hq2, hq3⟩ := sqrt_close (f := b64) (by decide) (by decide) fs s0 (B := 2 ^ 143) (by positivity) sB (by
    refine le_trans ?_ b64_400
    norm_num)
  rw [fle_iff (by decide) fr hw]
  have hT := unit250
  have hT0 : (0 : ℚ) ≤ 1 / 2 ^ b64.u := by positivity
  have e2 : (2 : ℚ) / 2 ^ b64.u = 2 * (1 / 2 ^ b64.u) := by ring
  rw [e2] at hq3
  change |_| ≤ _ / 2 ^ 53 + _ at hq3
  generalize (1 : ℚ) / 2 ^ b64.u = T' at *
  generalize S.sqrt.toRat = r at *
  generalize S.toRat = S' at *
  have hQ0 : 0 ≤ c.toRat ^ 2 + d.toRat ^ 2 := by positivity
  generalize c.toRat ^ 2 + d.toRat ^ 2 = Q at *
  generalize w.toRat = W at *
  clear hm hn hs hmn bm bn m0 n0 ec ed sc sd bc bd h400 e283 p280 sB e2 fm fn fs fr e0
  rw [abs_le] at he hq3
  constructor
  · intro hrw
    have W0 : 0 ≤ W := r0.trans hrw
    refine ⟨W0, ?_⟩
    have hy : q + T' ≤ W + W / 2 ^ 51 + 1 / 2 ^ 240 := by
      have := hq3.1
      norm_num at this hT ⊢
      linarith
    generalize hyy : W + W / 2 ^ 51 + 1 / 2 ^ 240 = y at *
    have y0 : 0 ≤ y := by rw [← hyy]; positivity
    have hS : S' ≤ y ^ 2 := hq2.trans (pow_le_pow_left₀ (by linarith) hy 2)
    have hQ : Q ≤ (y + y / 2 ^ 51 + 1 / 2 ^ 123) ^ 2 := by
      have h1 := he.1
      have h2 : (y + y / 2 ^ 51 + 1 / 2 ^ 123) ^ 2 ≥ y ^ 2 * (1 + 1 / 2 ^ 50) + 1 / 2 ^ 246 := by
        have : (y + y / 2 ^ 51 + 1 / 2 ^ 123) ^ 2 = y ^ 2 * (1 + 1 / 2 ^ 50) + 1 / 2 ^ 246 + (y ^ 2 / 2 ^ 102 + 2 * (y + y / 2 ^ 51) * (1 / 2 ^ 123)) := by ring
        rw [this]
        have : 0 ≤ y ^ 2 / 2 ^ 102 + 2 * (y + y / 2 ^ 51) * (1 / 2 ^ 123) := by positivity
        linarith
      have h3 : 0 ≤ y ^ 2 := sq_nonneg y
      generalize (y + y / 2 ^ 51 + 1 / 2 ^ 123) ^ 2 = z at *
      generalize y ^ 2 = y2 at *
      norm_num at h1 h2 ⊢
      linarith
    refine hQ.trans (pow_le_pow_left₀ (by positivity) ?_ 2)
    rw [← hyy]
    norm_num
    linarith
  · intro R R0 hQR hRW
    have hS : S' ≤ (R + R / 2 ^ 51 + 1 / 2 ^ 124) ^ 2 := by
      have h1 := he.2
      have h2 : (R + R / 2 ^ 51 + 1 / 2 ^ 124) ^ 2 ≥ R ^ 2 * (1 + 1 / 2 ^ 50) + 1 / 2 ^ 248 := by
        have : (R + R / 2 ^ 51 + 1 / 2 ^ 124) ^ 2 = R ^ 2 * (1 + 1 / 2 ^ 50) + 1 / 2 ^ 248 + (R ^ 2 / 2 ^ 102 + 2 * (R + R / 2 ^ 51) * (1 / 2 ^ 124)) := by ring
        rw [this]
        have : 0 ≤ R ^ 2 / 2 ^ 102 + 2 * (R + R / 2 ^ 51) * (1 / 2 ^ 124) := by positivity
        linarith
      generalize (R + R / 2 ^ 51 + 1 / 2 ^ 124) ^ 2 = z at *
      have h3 : 0 ≤ R ^ 2 := sq_nonneg R
      generalize R ^ 2 = y2 at *
      norm_num at h1 h2 ⊢
      linarith
    have hq : q ≤ R + R / 2 ^ 51 + 1 / 2 ^ 124 := le_of_sq_le_sq (hq1.trans hS) (by positivity)
    have := hq3.2
    norm_num at this hq hT hRW ⊢
    linarith

/-- The differences of finite numbers. -/
theorem sub_bound {M : ℚ} (hM : M ≤ 2 ^ 130) {x y : F64} (hx : x.isFinite = true) (hy : y.isFinite = true) (bx : |x.toRat| ≤ M)
    (bY : |y.toRat| ≤ M) : (x.sub y).isFinite = true ∧ |(x.sub y).toRat - (x.toRat - y.toRat)| ≤ |x.toRat - y.toRat| / 2 ^ 53 ∧
      |x.toRat - y.toRat| ≤ 2 * M := by
  have h : |x.toRat - y.toRat| ≤ 2 * M := (abs_sub _ _).trans (by linarith)
  have h2 : (2 : ℚ) * 2 ^ 130 ≤ 2 ^ 400 := by norm_num
  have := sub_off hx hy (h.trans (by linarith))
  exact ⟨this.1, this.2, h⟩

/-- The computed product of two differences. -/
theorem dot_bound {M : ℚ} (hM : M ≤ 2 ^ 130) {d v e w : F64} {D V E W : ℚ} (fd : d.isFinite = true)
    (fv : v.isFinite = true) (fe : e.isFinite = true) (fw : w.isFinite = true) (hd : |d.toRat - D| ≤ |D| / 2 ^ 53)
    (hv : |v.toRat - V| ≤ |V| / 2 ^ 53) (he : |e.toRat - E| ≤ |E| / 2 ^ 53) (hw : |w.toRat - W| ≤ |W| / 2 ^ 53)
    (bD : |D| ≤ 2 * M) (bV : |V| ≤ 2 * M) (bE : |E| ≤ 2 * M) (bW : |W| ≤ 2 * M) :
    (Kurbo.dot (d, e) (v, w)).isFinite = true ∧
      |(Kurbo.dot (d, e) (v, w)).toRat - (D * V + E * W)| ≤ (|D| + |E|) * (2 * M) / 2 ^ 49 + 1 / 2 ^ 248 := by
  have small : ∀ {a A : ℚ}, |a - A| ≤ |A| / 2 ^ 53 → |A| ≤ 2 * M → |a| ≤ 2 ^ 132 := by
    intro a A h hA
    have h1 := abs_near h
    have h2 : |A| / 2 ^ 53 ≤ |A| := div_le_self (abs_nonneg _) (one_le_pow₀ (by norm_num))
    have h3 : (2 : ℚ) ^ 132 = 4 * 2 ^ 130 := by norm_num
    rw [h3]
    linarith
  have prod : ∀ {a b : ℚ}, |a| ≤ 2 ^ 132 → |b| ≤ 2 ^ 132 → |a * b| ≤ 2 ^ 264 := by
    intro a b ha hb
    rw [abs_mul]
    calc |a| * |b| ≤ 2 ^ 132 * 2 ^ 132 := mul_le_mul ha hb (abs_nonneg _) (by positivity)
      _ = 2 ^ 264 := by rw [← pow_add]
  have h400 : (2 : ℚ) ^ 264 ≤ 2 ^ 400 := pow_le_pow_right₀ (by norm_num) (by norm_num)
  have p1 := prod (small hd bD) (small hv bV)
  have p2 := prod (small he bE) (small hw bW)
  obtain ⟨fm, hm⟩ := mul_off fd fv (p1.trans h400)
  obtain ⟨fn, hn⟩ := mul_off fe fw (p2.trans h400)
  have bm := abs_near hm
  have bn := abs_near hn
  have hs0 : |(d.mul v).toRat + (e.mul w).toRat| ≤ 2 ^ 400 := by
    refine (abs_add_le _ _).trans ?_
    generalize |d.toRat * v.toRat| = x1 at *
    generalize |e.toRat * w.toRat| = x2 at *
    norm_num at bm bn p1 p2 ⊢
    linarith
  obtain ⟨fs, hs⟩ := add_off fm fn hs0
  refine ⟨fs, (dot_total hd hv he hw hm hn hs).trans ?_⟩
  have q1 : |D| * |V| ≤ |D| * (2 * M) := mul_le_mul_of_nonneg_left bV (abs_nonneg _)
  have q2 : |E| * |W| ≤ |E| * (2 * M) := mul_le_mul_of_nonneg_left bW (abs_nonneg _)
  have q3 : (|D| * |V| + |E| * |W|) / 2 ^ 49 ≤ (|D| + |E|) * (2 * M) / 2 ^ 49 := by
    apply div_le_div_of_nonneg_right _ (by positivity)
    linarith
  linarith

/-- One coordinate of the vector from the computed point. -/
theorem foot_bound {M : ℚ} (hM0 : 0 ≤ M) (hM : M ≤ 2 ^ 130) {a b p t : F64} (fa : a.isFinite = true) (fb : b.isFinite = true)
    (fp : p.isFinite = true) (ft : t.isFinite = true) (ba : |a.toRat| ≤ M) (bb : |b.toRat| ≤ M) (bp : |p.toRat| ≤ M)
    (t0 : 0 ≤ t.toRat) (t1 : t.toRat ≤ 1) :
    (p.sub (a.add (t.mul (b.sub a)))).isFinite = true ∧
      |(p.sub (a.add (t.mul (b.sub a)))).toRat - (p.toRat - (a.toRat + t.toRat * (b.toRat - a.toRat)))| ≤ M / 2 ^ 48 + 1 / 2 ^ 248 := by
  obtain ⟨fd, hd, bd⟩ := sub_bound hM fb fa bb ba
  have bd' := abs_near hd
  have h3 : |t.toRat * (b.sub a).toRat| ≤ |(b.sub a).toRat| := by
    rw [abs_mul, abs_of_nonneg t0]
    exact mul_le_of_le_one_left (abs_nonneg _) t1
  have h4 : |b.toRat - a.toRat| / 2 ^ 53 ≤ |b.toRat - a.toRat| := div_le_self (abs_nonneg _) (one_le_pow₀ (by norm_num))
  have hbig : (20 : ℚ) * 2 ^ 130 + 20 ≤ 2 ^ 400 := by norm_num
  have b1 : |t.toRat * (b.sub a).toRat| ≤ 4 * M := by linarith
  obtain ⟨fm, hm⟩ := mul_off ft fd (by linarith)
  have bm := abs_near hm
  have bm' : |(t.mul (b.sub a)).toRat| ≤ 8 * M + 1 := by
    have : |t.toRat * (b.sub a).toRat| / 2 ^ 53 ≤ |t.toRat * (b.sub a).toRat| := div_le_self (abs_nonneg _) (one_le_pow₀ (by norm_num))
    have : (1 : ℚ) / 2 ^ 250 ≤ 1 := by norm_num
    linarith
  have b2 := abs_add_le a.toRat (t.mul (b.sub a)).toRat
  obtain ⟨fe, he⟩ := add_off fa fm (by linarith)
  have be := abs_near he
  have be' : |(a.add (t.mul (b.sub a))).toRat| ≤ 18 * M + 2 := by
    have : |a.toRat + (t.mul (b.sub a)).toRat| / 2 ^ 53 ≤ |a.toRat + (t.mul (b.sub a)).toRat| := div_le_self (abs_nonneg _) (one_le_pow₀ (by norm_num))
    linarith
  have b3 := abs_sub p.toRat (a.add (t.mul (b.sub a))).toRat
  obtain ⟨fc, hc⟩ := sub_off fp fe (by linarith)
  exact ⟨fc, foot_error hM0 ba bb bp t0 t1 hd hm he hc⟩

/-- The point of the segment that the code finds: near the vector it measures, and nearly the best. -/
theorem foot_found {M : ℚ} (hM0 : 0 ≤ M) (hM : M ≤ 2 ^ 130) {a b p : F64 × F64}
    (fa1 : a.1.isFinite = true) (fa2 : a.2.isFinite = true) (fb1 : b.1.isFinite = true) (fb2 : b.2.isFinite = true)
    (fp1 : p.1.isFinite = true) (fp2 : p.2.isFinite = true)
    (ba1 : |a.1.toRat| ≤ M) (ba2 : |a.2.toRat| ≤ M) (bb1 : |b.1.toRat| ≤ M) (bb2 : |b.2.toRat| ≤ M)
    (bp1 : |p.1.toRat| ≤ M) (bp2 : |p.2.toRat| ≤ M)
    (grain : (b.1.toRat = a.1.toRat ∧ b.2.toRat = a.2.toRat) ∨
      1 / 2 ^ 149 ≤ |b.1.toRat - a.1.toRat| + |b.2.toRat - a.2.toRat|) :
    ∃ c d : F64, ∃ τ : ℚ, 0 ≤ τ ∧ τ ≤ 1 ∧ Kurbo.nearestSq a b p = Kurbo.dot (c, d) (c, d) ∧ c.isFinite = true ∧ d.isFinite = true ∧
      |c.toRat - (p.1.toRat - (a.1.toRat + τ * (b.1.toRat - a.1.toRat)))| ≤ M / 2 ^ 48 + 1 / 2 ^ 248 ∧
      |d.toRat - (p.2.toRat - (a.2.toRat + τ * (b.2.toRat - a.2.toRat)))| ≤ M / 2 ^ 48 + 1 / 2 ^ 248 ∧
      ∀ s r : ℚ, 0 ≤ s → s ≤ 1 → 0 ≤ r →
        (p.1.toRat - (a.1.toRat + s * (b.1.toRat - a.1.toRat))) ^ 2 + (p.2.toRat - (a.2.toRat + s * (b.2.toRat - a.2.toRat))) ^ 2 ≤ r ^ 2 →
        (p.1.toRat - (a.1.toRat + τ * (b.1.toRat - a.1.toRat))) ^ 2 + (p.2.toRat - (a.2.toRat + τ * (b.2.toRat - a.2.toRat))) ^ 2 ≤
          (r + (M / 2 ^ 44 + 1 / 2 ^ 94)) ^ 2 := by
  obtain ⟨fd1, hd1, bd1⟩ := sub_bound hM fb1 fa1 bb1 ba1
  obtain ⟨fd2, hd2, bd2⟩ := sub_bound hM fb2 fa2 bb2 ba2
  obtain ⟨fv1, hv1, bv1⟩ := sub_bound hM fp1 fa1 bp1 ba1
  obtain ⟨fv2, hv2, bv2⟩ := sub_bound hM fp2 fa2 bp2 ba2
  obtain ⟨fw1, hw1, bw1⟩ := sub_bound hM fp1 fb1 bp1 bb1
  obtain ⟨fw2, hw2, bw2⟩ := sub_bound hM fp2 fb2 bp2 bb2
  obtain ⟨fdot, hdot⟩ := dot_bound hM fd1 fv1 fd2 fv2 hd1 hv1 hd2 hv2 bd1 bv1 bd2 bv2
  obtain ⟨fsq, hsq⟩ := dot_bound hM fd1 fd1 fd2 fd2 hd1 hd1 hd2 hd2 bd1 bd1 bd2 bd2
  have e1 : Kurbo.dot (Kurbo.sub b a) (Kurbo.sub p a) = Kurbo.dot (b.1.sub a.1, b.2.sub a.2) (p.1.sub a.1, p.2.sub a.2) := rfl
  have e2 : Kurbo.dot (Kurbo.sub b a) (Kurbo.sub b a) = Kurbo.dot (b.1.sub a.1, b.2.sub a.2) (b.1.sub a.1, b.2.sub a.2) := rfl
  -- what is nearly best
  have best : ∀ τ : ℚ, (∀ s, 0 ≤ s → s ≤ 1 →
      (τ - s) * (τ * ((b.1.toRat - a.1.toRat) * (b.1.toRat - a.1.toRat) + (b.2.toRat - a.2.toRat) * (b.2.toRat - a.2.toRat)) -
        ((b.1.toRat - a.1.toRat) * (p.1.toRat - a.1.toRat) + (b.2.toRat - a.2.toRat) * (p.2.toRat - a.2.toRat))) ≤
      |τ - s| * ((|b.1.toRat - a.1.toRat| + |b.2.toRat - a.2.toRat|) * M / 2 ^ 45 + 1 / 2 ^ 244)) →
      ∀ s r : ℚ, 0 ≤ s → s ≤ 1 → 0 ≤ r →
        (p.1.toRat - (a.1.toRat + s * (b.1.toRat - a.1.toRat))) ^ 2 + (p.2.toRat - (a.2.toRat + s * (b.2.toRat - a.2.toRat))) ^ 2 ≤ r ^ 2 →
        (p.1.toRat - (a.1.toRat + τ * (b.1.toRat - a.1.toRat))) ^ 2 + (p.2.toRat - (a.2.toRat + τ * (b.2.toRat - a.2.toRat))) ^ 2 ≤
          (r + (M / 2 ^ 44 + 1 / 2 ^ 94)) ^ 2 := by
    intro τ hτ s r s0 s1 r0 hs
    rw [← sub_sub, ← sub_sub] at hs ⊢
    exact nearly_best' hM0 r0 (grain.imp (fun g => ⟨sub_eq_zero.2 g.1, sub_eq_zero.2 g.2⟩) id) hs (hτ s s0 s1)
  have hKM : 0 ≤ (|b.1.toRat - a.1.toRat| + |b.2.toRat - a.2.toRat|) * M := by positivity
  have hDD : (b.1.toRat - a.1.toRat) * (b.1.toRat - a.1.toRat) + (b.2.toRat - a.2.toRat) * (b.2.toRat - a.2.toRat) ≤
      2 * ((|b.1.toRat - a.1.toRat| + |b.2.toRat - a.2.toRat|) * M) := by
    have q1 := mul_le_mul_of_nonneg_left bd1 (abs_nonneg (b.1.toRat - a.1.toRat))
    have q2 := mul_le_mul_of_nonneg_left bd2 (abs_nonneg (b.2.toRat - a.2.toRat))
    rw [abs_mul_abs_self] at q1 q2
    linarith
  rw [abs_le] at hdot hsq
  have m0 : M / 2 ^ 48 + 1 / 2 ^ 248 ≥ 2 * M / 2 ^ 53 := by norm_num; linarith
  have zero_val : (Flt.zero : F64).isFinite = true ∧ (Flt.zero : F64).toRat = 0 := ⟨by decide, by
    unfold Flt.zero
    rw [toRat_num, Fmt.val_zero]
    simp⟩
  unfold Kurbo.nearestSq
  dsimp only
  rw [e1, e2]
  generalize Kurbo.dot (b.1.sub a.1, b.2.sub a.2) (p.1.sub a.1, p.2.sub a.2) = dotp at *
  generalize Kurbo.dot (b.1.sub a.1, b.2.sub a.2) (b.1.sub a.1, b.2.sub a.2) = dsq at *
  have i1 := fle_iff (by decide) fdot zero_val.1
  rw [zero_val.2] at i1
  have i2 := fle_iff (by decide) fsq fdot
  generalize hKM' : (|b.1.toRat - a.1.toRat| + |b.2.toRat - a.2.toRat|) * M = K at *
  have eK : (|b.1.toRat - a.1.toRat| + |b.2.toRat - a.2.toRat|) * (2 * M) = 2 * K := by rw [← hKM']; ring
  rw [eK] at hdot hsq
  split
  · next h =>
    rw [i1] at h
    refine ⟨p.1.sub a.1, p.2.sub a.2, 0, le_refl _, by norm_num, rfl, fv1, fv2, ?_, ?_, best 0 ?_⟩
    · rw [zero_mul, add_zero]
      refine hv1.trans (le_trans ?_ m0)
      exact div_le_div_of_nonneg_right bv1 (by positivity)
    · rw [zero_mul, add_zero]
      refine hv2.trans (le_trans ?_ m0)
      exact div_le_div_of_nonneg_right bv2 (by positivity)
    · intro s s0 s1
      rw [zero_mul, zero_sub, zero_sub, abs_neg, abs_of_nonneg s0, neg_mul_neg]
      refine mul_le_mul_of_nonneg_left ?_ s0
      have := hdot.1
      norm_num at this ⊢
      linarith
  · next h =>
    rw [i1] at h
    split
    · next h' =>
      rw [i2] at h'
      refine ⟨p.1.sub b.1, p.2.sub b.2, 1, by norm_num, le_refl _, rfl, fw1, fw2, ?_, ?_, best 1 ?_⟩
      · rw [one_mul, add_sub_cancel]
        refine hw1.trans (le_trans ?_ m0)
        exact div_le_div_of_nonneg_right bw1 (by positivity)
      · rw [one_mul, add_sub_cancel]
        refine hw2.trans (le_trans ?_ m0)
        exact div_le_div_of_nonneg_right bw2 (by positivity)
      · intro s s0 s1
        rw [one_mul, abs_of_nonneg (by linarith : (0 : ℚ) ≤ 1 - s)]
        refine mul_le_mul_of_nonneg_left ?_ (by linarith)
        have h1 := hdot.2
        have h2 := hsq.1
        norm_num at h1 h2 ⊢
        linarith
    · next h' =>
      rw [i2] at h'
      push Not at h h'
      obtain ⟨ft, t0, t1, ht⟩ := div_unit fdot fsq h h'
      obtain ⟨fc1, hc1⟩ := foot_bound hM0 hM fa1 fb1 fp1 ft ba1 bb1 bp1 t0 t1
      obtain ⟨fc2, hc2⟩ := foot_bound hM0 hM fa2 fb2 fp2 ft ba2 bb2 bp2 t0 t1
      refine ⟨_, _, (dotp.div dsq).toRat, t0, t1, rfl, fc1, fc2, hc1, hc2, best _ ?_⟩
      intro s s0 s1
      refine (le_abs_self _).trans ?_
      rw [abs_mul]
      refine mul_le_mul_of_nonneg_left ?_ (abs_nonneg _)
      generalize (dotp.div dsq).toRat = t at *
      generalize (b.1.toRat - a.1.toRat) * (b.1.toRat - a.1.toRat) + (b.2.toRat - a.2.toRat) * (b.2.toRat - a.2.toRat) = N at *
      generalize (b.1.toRat - a.1.toRat) * (p.1.toRat - a.1.toRat) + (b.2.toRat - a.2.toRat) * (p.2.toRat - a.2.toRat) = G at *
      have hs0 : 0 < dsq.toRat := h.trans h'
      -- the quotient times the divisor
      have k1 : |t * dsq.toRat - dotp.toRat| ≤ dotp.toRat / 2 ^ 53 + dsq.toRat / 2 ^ 250 := by
        unfold Off at ht
        rw [abs_of_nonneg (div_nonneg h.le hs0.le)] at ht
        have e : t * dsq.toRat - dotp.toRat = (t - dotp.toRat / dsq.toRat) * dsq.toRat := by
          rw [sub_mul, div_mul_cancel₀ _ hs0.ne']
        rw [e, abs_mul, abs_of_pos hs0]
        refine (mul_le_mul_of_nonneg_right ht hs0.le).trans (le_of_eq ?_)
        field_simp
      have k2 : |t * (N - dsq.toRat)| ≤ 2 * K / 2 ^ 49 + 1 / 2 ^ 248 := by
        rw [abs_mul, abs_of_nonneg t0, abs_sub_comm]
        exact (mul_le_of_le_one_left (abs_nonneg _) t1).trans (abs_le.2 hsq)
      have e : t * N - G = t * (N - dsq.toRat) + (t * dsq.toRat - dotp.toRat) + (dotp.toRat - G) := by ring
      rw [e]
      rw [abs_le] at k1 k2 ⊢
      have := hdot.1
      have := hdot.2
      have := hsq.2
      have := k1.1
      have := k1.2
      have := k2.1
      have := k2.2
      norm_num at *
      constructor <;> linarith

end GP
