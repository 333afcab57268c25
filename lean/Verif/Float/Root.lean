import Verif.Float.Shortest
import Verif.Float.Sqrt
import Verif.Spec.Ieee
/-!
# Rounding keeps the order, and the square root is rounded correctly
-/
open Fl GP GP.Spec
namespace Fl
open Fmt

variable {f : Fmt}

/-- Rounding keeps the order. -/
theorem reads_mono (hp : 1 ≤ f.p) {y y' : ℚ} {k k' : Nat} (hk : k ≤ f.inf) (hk' : k' ≤ f.inf) (h : ReadsAs f k y)
    (h' : ReadsAs f k' y') (hy : y ≤ y') : k ≤ k' := by
  by_contra hh
  have hlt : k' < k := by omega
  have hm := magnitude_lt hp hlt
  have n1 := h.near k' hk'
  have n2 := h'.near k hk
  -- both are in the middle
  have m1 : (magnitude f k + magnitude f k') / 2 ≤ y := by
    by_contra hc
    rcases abs_cases (y - magnitude f k) with ⟨e1, c1⟩ | ⟨e1, c1⟩ <;>
      rcases abs_cases (y - magnitude f k') with ⟨e2, c2⟩ | ⟨e2, c2⟩ <;> rw [e1, e2] at n1 <;> linarith
  have m2 : y' ≤ (magnitude f k + magnitude f k') / 2 := by
    by_contra hc
    rcases abs_cases (y' - magnitude f k) with ⟨e1, c1⟩ | ⟨e1, c1⟩ <;>
      rcases abs_cases (y' - magnitude f k') with ⟨e2, c2⟩ | ⟨e2, c2⟩ <;> rw [e1, e2] at n2 <;> linarith
  have e : y = (magnitude f k + magnitude f k') / 2 := by linarith
  have e' : y' = (magnitude f k + magnitude f k') / 2 := by linarith
  have d1 : |y - magnitude f k| = |y - magnitude f k'| := by
    rw [e, abs_of_nonpos (by linarith), abs_of_nonneg (by linarith)]
    ring
  have d2 : |y' - magnitude f k'| = |y' - magnitude f k| := by
    rw [e', abs_of_nonpos (a := _ - magnitude f k) (by linarith), abs_of_nonneg (by linarith)]
    ring
  have ev := h.even k' hk' (by omega) d1
  have ev' := h'.even k hk (by omega) d2
  have hb : k' + 1 < k := by omega
  have b1 := magnitude_lt hp hb
  have b2 := magnitude_lt (f := f) hp (Nat.lt_succ_self k')
  have n3 := h.near (k' + 1) (by omega)
  rw [e, abs_of_nonpos (by linarith)] at n3
  rcases abs_cases ((magnitude f k + magnitude f k') / 2 - magnitude f (k' + 1)) with ⟨e2, c2⟩ | ⟨e2, c2⟩ <;> rw [e2] at n3 <;> linarith

/-- Between two successive units, far from zero, all numbers are rounded to the same. -/
theorem roundU_const (hp : 2 ≤ f.p) {n d q : Nat} (hq : 2 ^ f.p ≤ q) (h1 : q * d < n * 2 ^ f.u) (h2 : n * 2 ^ f.u < (q + 1) * d) :
    f.roundU n d = f.shift q * 2 ^ (f.p - 1) + (q / 2 ^ f.shift q + if q % 2 ^ f.shift q < 2 ^ (f.shift q - 1) then 0 else 1) := by
  have hd : 0 < d := by
    apply Nat.pos_of_ne_zero
    rintro rfl
    simp at h2
  unfold roundU
  simp only []
  generalize n * 2 ^ f.u = N at *
  have hN : N / d = q := by
    apply Nat.div_eq_of_lt_le
    · exact h1.le
    · exact h2
  rw [hN]
  have hs : 1 ≤ f.shift q := by
    unfold shift
    rw [if_neg (by omega)]
    have : f.p ≤ Nat.log2 q := (Nat.le_log2 (by have := Nat.pow_pos (n := f.p) (by decide : 0 < 2); omega)).2 hq
    omega
  generalize f.shift q = s at *
  obtain ⟨t, rfl⟩ : ∃ t, s = t + 1 := ⟨s - 1, by omega⟩
  rw [Nat.add_sub_cancel]
  have hP : 2 ^ (t + 1) = 2 * 2 ^ t := by rw [Nat.pow_succ, Nat.mul_comm]
  have hP0 : 0 < 2 ^ t := Nat.pow_pos (by decide)
  have hb := Nat.mod_lt q (by omega : 0 < 2 ^ (t + 1))
  have hab := Nat.div_add_mod q (2 ^ (t + 1))
  generalize q / 2 ^ (t + 1) = a at *
  generalize q % 2 ^ (t + 1) = b at *
  rw [hP] at *
  generalize 2 ^ t = P at *
  obtain ⟨r, rfl⟩ : ∃ r, N = q * d + r := ⟨N - q * d, by omega⟩
  have hr : r < d := by
    rw [Nat.add_mul] at h2
    omega
  have hr0 : 0 < r := by omega
  have e : q * d + r = d * (2 * P) * a + (b * d + r) := by
    rw [← hab]
    ring
  have hlt : b * d + r < d * (2 * P) := by
    have : (b + 1) * d ≤ 2 * P * d := Nat.mul_le_mul_right d hb
    rw [Nat.add_mul] at this
    rw [Nat.mul_comm d]
    omega
  have hdiv : (q * d + r) / (d * (2 * P)) = a := by
    rw [e, Nat.mul_add_div (by positivity), Nat.div_eq_of_lt hlt, Nat.add_zero]
  have hmod : (q * d + r) % (d * (2 * P)) = b * d + r := by
    rw [e, Nat.mul_add_mod, Nat.mod_eq_of_lt hlt]
  unfold rne
  rw [hdiv, hmod]
  congr 1
  by_cases hbP : b < P
  · rw [if_pos hbP, if_pos]
    · rfl
    · have : (b + 1) * d ≤ P * d := Nat.mul_le_mul_right d hbP
      rw [Nat.add_mul] at this
      have e2 : d * (2 * P) = 2 * (P * d) := by ring
      rw [e2]
      omega
  · have hbP' : P * d ≤ b * d := Nat.mul_le_mul_right d (by omega)
    have e2 : d * (2 * P) = 2 * (P * d) := by ring
    rw [if_neg hbP, if_neg (by rw [e2]; omega), if_pos (by rw [e2]; omega)]

/-- The same for rational numbers. -/
theorem reads_const (hp : 2 ≤ f.p) {q : Nat} (hq : 2 ^ f.p ≤ q) {y y' : ℚ} {j j' : Nat} (hj : j ≤ f.inf) (hj' : j' ≤ f.inf)
    (h1 : (q : ℚ) / 2 ^ f.u < y) (h2 : y < ((q : ℚ) + 1) / 2 ^ f.u) (h1' : (q : ℚ) / 2 ^ f.u < y') (h2' : y' < ((q : ℚ) + 1) / 2 ^ f.u)
    (h : ReadsAs f j y) (h' : ReadsAs f j' y') : j = j' := by
  have hu : (0 : ℚ) < 2 ^ f.u := by positivity
  have frac : ∀ {y : ℚ} {j : Nat}, j ≤ f.inf → (q : ℚ) / 2 ^ f.u < y → y < ((q : ℚ) + 1) / 2 ^ f.u → ReadsAs f j y →
      j = min (f.shift q * 2 ^ (f.p - 1) + (q / 2 ^ f.shift q + if q % 2 ^ f.shift q < 2 ^ (f.shift q - 1) then 0 else 1)) f.inf := by
    intro y j hj h1 h2 h
    have hy0 : 0 ≤ y := le_trans (by positivity) h1.le
    obtain ⟨n, d, hd, rfl⟩ : ∃ n d : Nat, 0 < d ∧ y = (n : ℚ) / d := by
      refine ⟨y.num.toNat, y.den, y.den_pos, ?_⟩
      have hn : ((y.num.toNat : ℤ) : ℚ) = y.num := by rw [Int.toNat_of_nonneg (Rat.num_nonneg.2 hy0)]
      rw [Int.cast_natCast] at hn
      rw [hn]
      exact (Rat.num_div_den y).symm
    have hdq : (0 : ℚ) < d := by exact_mod_cast hd
    rw [readsAs_iff n d j hd hj, nearest_iff f hp hd] at h
    rw [div_lt_div_iff₀ hu hdq] at h1
    rw [div_lt_div_iff₀ hdq hu] at h2
    rw [← h]
    unfold Fmt.round
    rw [roundU_const hp hq (by exact_mod_cast h1) (by exact_mod_cast h2)]
  rw [frac hj h1 h2 h, frac hj' h1' h2' h']

/-- The root of the model is the correctly rounded one. -/
theorem sqrt_reads (hp : 2 ≤ f.p) (hu : 2 * f.p ≤ f.u) {V : Nat} (hV : 0 < V) (k : Nat) (hk : k ≤ f.inf) :
    Ieee.RootReadsAs f k ((V : ℚ) / 2 ^ f.u) ↔
      f.round (if Nat.sqrt (V * 2 ^ f.u) * Nat.sqrt (V * 2 ^ f.u) = V * 2 ^ f.u then 2 * Nat.sqrt (V * 2 ^ f.u)
        else 2 * Nat.sqrt (V * 2 ^ f.u) + 1) (2 ^ (f.u + 1)) = k := by
  have hU : (0 : ℚ) < 2 ^ f.u := by positivity
  generalize hn : V * 2 ^ f.u = n
  have ha : (V : ℚ) / 2 ^ f.u = (n : ℚ) / (2 ^ f.u) ^ 2 := by
    rw [← hn]
    push_cast
    field_simp
  rw [ha]
  have hq0 : 2 ^ f.p ≤ Nat.sqrt n := by
    rw [Nat.le_sqrt, ← Nat.pow_add, ← hn]
    calc 2 ^ (f.p + f.p) ≤ 2 ^ f.u := Nat.pow_le_pow_right (by decide) (by omega)
      _ ≤ V * 2 ^ f.u := Nat.le_mul_of_pos_left _ hV
  have hq1 : Nat.sqrt n * Nat.sqrt n ≤ n := Nat.sqrt_le n
  have hq2 : n < (Nat.sqrt n + 1) * (Nat.sqrt n + 1) := Nat.lt_succ_sqrt n
  generalize Nat.sqrt n = q at *
  have hqpos : 0 < q := lt_of_lt_of_le (Nat.pow_pos (by decide)) hq0
  have hD : (0 : ℕ) < 2 ^ (f.u + 1) := Nat.pow_pos (by decide)
  -- comparing squares is comparing numbers
  have below : ∀ {y b : ℚ}, 0 ≤ b → y ^ 2 ≤ (n : ℚ) / (2 ^ f.u) ^ 2 → (n : ℚ) ≤ b ^ 2 → y ≤ b / 2 ^ f.u := by
    intro y b hb h1 h2
    apply le_of_sq_le_sq _ (by positivity)
    rw [div_pow]
    exact h1.trans (div_le_div_of_nonneg_right h2 (by positivity))
  have above : ∀ {y b : ℚ}, 0 ≤ y → (n : ℚ) / (2 ^ f.u) ^ 2 ≤ y ^ 2 → b ^ 2 ≤ n → b / 2 ^ f.u ≤ y := by
    intro y b hy h1 h2
    apply le_of_sq_le_sq _ hy
    rw [div_pow]
    exact (div_le_div_of_nonneg_right h2 (by positivity)).trans h1
  by_cases he : q * q = n
  · rw [if_pos he]
    have heq : ((q : ℚ)) ^ 2 = n := by rw [sq]; exact_mod_cast he
    have hr := (readsAs_iff (f := f) (2 * q) (2 ^ (f.u + 1)) _ hD (f.round_le _ _)).2 (round_nearest f hp (2 * q) (2 ^ (f.u + 1)) hD)
    have ey : ((2 * q : ℕ) : ℚ) / ((2 ^ (f.u + 1) : ℕ) : ℚ) = (q : ℚ) / 2 ^ f.u := by
      push_cast
      rw [pow_succ]
      field_simp
    rw [ey] at hr
    constructor
    · intro h
      have hy2 : ((q : ℚ) / 2 ^ f.u) ^ 2 = (n : ℚ) / (2 ^ f.u) ^ 2 := by rw [div_pow, heq]
      have := h ((q : ℚ) / 2 ^ f.u) _ (by positivity) (f.round_le _ _) hr
      exact le_antisymm (this.1 hy2.le) (this.2 hy2.ge)
    · rintro rfl
      intro y j hy hj hrj
      exact ⟨fun h => reads_mono (by omega) hj (f.round_le _ _) hrj hr (below (by positivity) h heq.ge),
        fun h => reads_mono (by omega) (f.round_le _ _) hj hr hrj (above hy h heq.le)⟩
  · rw [if_neg he]
    have hlt : q * q + 1 ≤ n := by omega
    have hgt : n + 1 ≤ (q + 1) * (q + 1) := hq2
    have hltq : (q : ℚ) * q + 1 ≤ n := by exact_mod_cast hlt
    have hgtq : (n : ℚ) + 1 ≤ (q + 1) * (q + 1) := by exact_mod_cast hgt
    have hqq : (0 : ℚ) < q := by exact_mod_cast hqpos
    have hr := (readsAs_iff (f := f) (2 * q + 1) (2 ^ (f.u + 1)) _ hD (f.round_le _ _)).2 (round_nearest f hp (2 * q + 1) (2 ^ (f.u + 1)) hD)
    have ey : ((2 * q + 1 : ℕ) : ℚ) / ((2 ^ (f.u + 1) : ℕ) : ℚ) = ((q : ℚ) + 1 / 2) / 2 ^ f.u := by
      push_cast
      rw [pow_succ]
      field_simp
    rw [ey] at hr
    have c1 : (q : ℚ) / 2 ^ f.u < ((q : ℚ) + 1 / 2) / 2 ^ f.u := div_lt_div_of_pos_right (by linarith) hU
    have c2 : ((q : ℚ) + 1 / 2) / 2 ^ f.u < ((q : ℚ) + 1) / 2 ^ f.u := div_lt_div_of_pos_right (by linarith) hU
    constructor
    · intro h
      -- rational numbers on both sides of the root
      have hε : (0 : ℚ) < 1 / (2 * q + 2) := by positivity
      have hε1 : 1 / (2 * (q : ℚ) + 2) < 1 := by rw [div_lt_one (by positivity)]; linarith
      have hεq : 1 / (2 * (q : ℚ) + 2) * (2 * q + 2) = 1 := div_mul_cancel₀ _ (by positivity)
      generalize 1 / (2 * (q : ℚ) + 2) = ε at *
      have reads : ∀ e : ℚ, 0 < e → e < 1 → ReadsAs f (f.round (2 * q + 1) (2 ^ (f.u + 1))) ((q + e) / 2 ^ f.u) := by
        intro e e0 e1
        have hy0 : 0 ≤ ((q : ℚ) + e) / 2 ^ f.u := by positivity
        generalize hy : ((q : ℚ) + e) / 2 ^ f.u = y at *
        obtain ⟨a, d, hd, rfl⟩ : ∃ a d : Nat, 0 < d ∧ y = (a : ℚ) / d := by
          refine ⟨y.num.toNat, y.den, y.den_pos, ?_⟩
          have hn : ((y.num.toNat : ℤ) : ℚ) = y.num := by rw [Int.toNat_of_nonneg (Rat.num_nonneg.2 hy0)]
          rw [Int.cast_natCast] at hn
          rw [hn]
          exact (Rat.num_div_den y).symm
        have hr2 := (readsAs_iff (f := f) a d _ hd (f.round_le _ _)).2 (round_nearest f hp a d hd)
        have := reads_const hp hq0 (f.round_le _ _) (f.round_le _ _) (by rw [← hy]; exact div_lt_div_of_pos_right (by linarith) hU)
          (by rw [← hy]; exact div_lt_div_of_pos_right (by linarith) hU) c1 c2 hr2 hr
        rw [← this]
        exact hr2
      apply le_antisymm
      · refine (h _ _ (by positivity) (f.round_le _ _) (reads ε hε hε1)).1 ?_
        rw [div_pow]
        apply div_le_div_of_nonneg_right _ (by positivity)
        nlinarith
      · refine (h _ _ (by apply div_nonneg _ hU.le; linarith) (f.round_le _ _) (reads (1 - ε) (by linarith) (by linarith))).2 ?_
        rw [div_pow]
        apply div_le_div_of_nonneg_right _ (by positivity)
        nlinarith
    · rintro rfl
      intro y j hy hj hrj
      constructor
      · intro h
        by_cases hyq : y ≤ (q : ℚ) / 2 ^ f.u
        · exact reads_mono (by omega) hj (f.round_le _ _) hrj hr (hyq.trans c1.le)
        · have hy2 : y < ((q : ℚ) + 1) / 2 ^ f.u := by
            apply lt_of_pow_lt_pow_left₀ 2 (by positivity)
            rw [div_pow]
            refine lt_of_le_of_lt h (div_lt_div_of_pos_right ?_ (by positivity))
            linarith
          exact (reads_const hp hq0 hj (f.round_le _ _) (by linarith) hy2 c1 c2 hrj hr).le
      · intro h
        by_cases hyq : ((q : ℚ) + 1) / 2 ^ f.u ≤ y
        · exact reads_mono (by omega) (f.round_le _ _) hj hr hrj (c2.le.trans hyq)
        · have hy2 : (q : ℚ) / 2 ^ f.u < y := by
            apply lt_of_pow_lt_pow_left₀ 2 hy
            rw [div_pow]
            refine lt_of_lt_of_le (div_lt_div_of_pos_right ?_ (by positivity)) h
            linarith
          exact (reads_const hp hq0 hj (f.round_le _ _) hy2 (by linarith) c1 c2 hrj hr).ge

end Fl
