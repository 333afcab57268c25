import Verif.Spec.Ieee
import Verif.Float.Shortest
import Verif.Float.Round
import Verif.Float.Root
import Verif.Model.Matrix
/-!
# C99: arithmetic is IEEE 754's
-/
open Fl
namespace GP
open Spec Ieee
variable {f g : Fmt}

theorem magnitude_zero : magnitude f 0 = 0 := by simp [magnitude, Fmt.val_zero]

theorem magnitude_eq_zero (hp : 1 ≤ f.p) {k : Nat} : magnitude f k = 0 ↔ k = 0 := by
  constructor
  · intro h
    by_contra hk
    have := magnitude_lt (f := f) hp (Nat.pos_of_ne_zero hk)
    rw [h, magnitude_zero] at this
    exact lt_irrefl _ this
  · rintro rfl; exact magnitude_zero

theorem magnitude_nonneg (k : Nat) : 0 ≤ magnitude f k := by unfold magnitude; positivity

theorem magnitude_lt_iff (hp : 1 ≤ f.p) {j k : Nat} : magnitude f j < magnitude f k ↔ j < k := by
  refine ⟨fun h => ?_, magnitude_lt hp⟩
  by_contra hh
  rcases Nat.lt_or_eq_of_le (Nat.le_of_not_lt hh) with h1 | h1
  · exact absurd (magnitude_lt hp h1) (not_lt.2 h.le)
  · rw [h1] at h; exact lt_irrefl _ h

theorem magnitude_inj (hp : 1 ≤ f.p) {j k : Nat} : magnitude f j = magnitude f k ↔ j = k := by
  refine ⟨fun h => ?_, fun h => by rw [h]⟩
  rcases Nat.lt_trichotomy j k with h1 | h1 | h1
  · exact absurd (magnitude_lt (f := f) hp h1) (by rw [h]; exact lt_irrefl _)
  · exact h1
  · exact absurd (magnitude_lt (f := f) hp h1) (by rw [h]; exact lt_irrefl _)

theorem nearestTo_iff (hp : 2 ≤ f.p) (s : Bool) (n d : Nat) (hd : 0 < d) (z : Flt f) :
    NearestTo s ((n : ℚ) / d) z ↔ Flt.ofFrac f s n d = z := by
  constructor
  · rintro ⟨k, h, rfl, hr⟩
    rw [readsAs_iff n d k hd h, nearest_iff f hp hd] at hr
    unfold Flt.ofFrac
    simp only [hr]
  · rintro rfl
    exact ⟨_, f.round_le n d, rfl, (readsAs_iff n d _ hd (f.round_le n d)).2 (round_nearest f hp n d hd)⟩

/-- A float is what it stands for. -/
theorem datum_inj (hp : 1 ≤ f.p) {x y : Flt f} : datum x = datum y ↔ x = y := by
  refine ⟨fun h => ?_, fun h => by rw [h]⟩
  cases x with
  | nan =>
    cases y with
    | nan => rfl
    | num t k hk => unfold datum at h; simp only [] at h; split at h <;> cases h
  | num s j hj =>
    cases y with
    | nan => unfold datum at h; simp only [] at h; split at h <;> cases h
    | num t k hk =>
      unfold datum at h
      simp only [] at h
      split at h <;> split at h
      · next h1 h2 => cases h; subst h1; subst h2; rfl
      · cases h
      · cases h
      · rw [Datum.fin.injEq, magnitude_inj hp] at h
        obtain ⟨rfl, rfl⟩ := h
        rfl

theorem datum_inf (s : Bool) : datum (Flt.infinity s : Flt f) = .inf s := by simp [datum, Flt.infinity]

theorem datum_fin (s : Bool) {k : Nat} (h : k ≤ f.inf) (hk : k < f.inf) : datum (.num s k h : Flt f) = .fin s (magnitude f k) := by
  simp [datum, Nat.ne_of_lt hk]

theorem nan_iff (hp : 1 ≤ f.p) {z : Flt f} : Flt.nan = z ↔ datum z = .nan := by
  rw [show Datum.nan = datum (Flt.nan : Flt f) from rfl, datum_inj hp, eq_comm]

theorem inf_iff (hp : 1 ≤ f.p) {z : Flt f} {s : Bool} : Flt.infinity s = z ↔ datum z = .inf s := by
  rw [← datum_inf (f := f), datum_inj hp, eq_comm]

theorem fin_iff (hp : 1 ≤ f.p) {z : Flt f} {s : Bool} {k : Nat} {h : k ≤ f.inf} (hk : k < f.inf) :
    Flt.num s k h = z ↔ datum z = .fin s (magnitude f k) := by
  rw [← datum_fin s h hk, datum_inj hp, eq_comm]

/-- There are three kinds of floats. -/
theorem flt_kinds (x : Flt f) : x = .nan ∨ (∃ s, x = Flt.infinity s) ∨ ∃ s k h, k < f.inf ∧ x = .num s k h := by
  cases x with
  | nan => exact Or.inl rfl
  | num s k h =>
    rcases Nat.lt_or_eq_of_le h with hk | rfl
    · exact Or.inr (Or.inr ⟨s, k, h, hk, rfl⟩)
    · exact Or.inr (Or.inl ⟨s, rfl⟩)

theorem sval_rat (s : Bool) (k : Nat) (h : k ≤ f.inf) : ((Flt.sval (.num s k h : Flt f) : Int) : ℚ) / 2 ^ f.u = signed s (magnitude f k) := by
  unfold Flt.sval signed magnitude
  cases s
  · simp
  · simp [neg_div]

/-- The formats that are used. -/
structure UsedFormat (f : Fmt) : Prop where
  p : 2 ≤ f.p
  inf : 0 < f.inf
  big : f.Big

theorem used32 : UsedFormat b32 := ⟨b32_p2, by decide +kernel, b32_big⟩
theorem used64 : UsedFormat b64 := ⟨b64_p2, by decide +kernel, b64_big⟩

/-- **C99.** Addition. -/
theorem C99_add (hf : UsedFormat f) (x y z : Flt f) : x.add y = z ↔ SumIs z (datum x) (datum y) := by
  have hp := hf.p
  have hp1 : 1 ≤ f.p := by omega
  rcases flt_kinds x with rfl | ⟨s, rfl⟩ | ⟨s, j, hj, hjl, rfl⟩
  · exact nan_iff hp1
  · rw [datum_inf]
    rcases flt_kinds y with rfl | ⟨t, rfl⟩ | ⟨t, k, hk, hkl, rfl⟩
    · exact nan_iff hp1
    · rw [datum_inf]
      unfold SumIs Flt.add Flt.infinity
      by_cases h : s = t
      · simp only [h, ne_eq, not_true_eq_false, and_false, if_true, if_false]
        exact inf_iff hp1
      · simp only [h, ne_eq, not_false_eq_true, and_true, if_true, if_false]
        exact nan_iff hp1
    · rw [datum_fin t hk hkl]
      unfold SumIs Flt.add Flt.infinity
      simp only [Nat.ne_of_lt hkl, false_and, if_true, if_false]
      exact inf_iff hp1
  · rw [datum_fin s hj hjl]
    rcases flt_kinds y with rfl | ⟨t, rfl⟩ | ⟨t, k, hk, hkl, rfl⟩
    · exact nan_iff hp1
    · rw [datum_inf]
      unfold SumIs Flt.add Flt.infinity
      simp only [Nat.ne_of_lt hjl, if_true, if_false]
      exact inf_iff hp1
    · rw [datum_fin t hk hkl]
      unfold SumIs Flt.add
      simp only [Nat.ne_of_lt hjl, Nat.ne_of_lt hkl, if_false]
      have hv : signed s (magnitude f j) + signed t (magnitude f k) =
          (((Flt.num s j hj : Flt f).sval + (Flt.num t k hk : Flt f).sval : Int) : ℚ) / 2 ^ f.u := by
        rw [← sval_rat s j hj, ← sval_rat t k hk]; push_cast; rw [add_div]
      rw [hv]
      generalize (Flt.num s j hj : Flt f).sval + (Flt.num t k hk : Flt f).sval = v
      have hu : (0 : ℚ) < 2 ^ f.u := by positivity
      by_cases h0 : v = 0
      · subst h0
        simp only [if_true, Int.cast_zero, zero_div, true_implies, ne_eq, not_true_eq_false, false_implies, and_true]
        have e : datum (if (s && t) = true then Flt.negZero else Flt.zero : Flt f) = .fin (s && t) 0 := by
          have := hf.inf
          have h0 : ¬ 0 = f.inf := by omega
          cases s <;> cases t <;> simp [datum, Flt.negZero, Flt.zero, h0, magnitude_zero]
        rw [← e, datum_inj hp1, eq_comm]
      · have hne : ¬ ((v : ℚ) / 2 ^ f.u = 0) := by
          rw [div_eq_zero_iff]
          push Not
          exact ⟨by exact_mod_cast h0, hu.ne'⟩
        simp only [h0, if_false, hne, false_implies, ne_eq, not_false_eq_true, true_implies, true_and]
        have e1 : |(v : ℚ) / 2 ^ f.u| = (v.natAbs : ℚ) / (2 ^ f.u : Nat) := by
          rw [abs_div, abs_of_pos hu, Nat.cast_natAbs, Int.cast_abs]
          push_cast; rfl
        have e2 : (decide ((v : ℚ) / 2 ^ f.u < 0)) = decide (v < 0) := by
          rw [decide_eq_decide, div_neg_iff]
          constructor
          · rintro (⟨-, h⟩ | ⟨h, -⟩)
            · exact absurd h (not_lt.2 hu.le)
            · exact_mod_cast h
          · intro h
            exact Or.inr ⟨by exact_mod_cast h, hu⟩
        rw [e1, e2, nearestTo_iff hp _ _ _ (Nat.pow_pos (by decide))]

theorem datum_neg (x : Flt f) : datum x.neg = opposite (datum x) := by
  rcases flt_kinds x with rfl | ⟨s, rfl⟩ | ⟨s, j, hj, hjl, rfl⟩
  · rfl
  · rw [datum_inf]; exact datum_inf (!s)
  · rw [datum_fin s hj hjl]; exact datum_fin (!s) hj hjl

/-- **C99.** Subtraction. -/
theorem C99_sub (hf : UsedFormat f) (x y z : Flt f) : x.sub y = z ↔ SumIs z (datum x) (opposite (datum y)) := by
  rw [← datum_neg]; exact C99_add hf x y.neg z

/-- **C99.** Multiplication. -/
theorem C99_mul (hf : UsedFormat f) (x y z : Flt f) : x.mul y = z ↔ ProductIs z (datum x) (datum y) := by
  have hp := hf.p
  have hp1 : 1 ≤ f.p := by omega
  have hx : ∀ s t : Bool, (s != t) = (s ^^ t) := by decide
  rcases flt_kinds x with rfl | ⟨s, rfl⟩ | ⟨s, j, hj, hjl, rfl⟩
  · exact nan_iff hp1
  · rw [datum_inf]
    rcases flt_kinds y with rfl | ⟨t, rfl⟩ | ⟨t, k, hk, hkl, rfl⟩
    · exact nan_iff hp1
    · rw [datum_inf]
      unfold ProductIs Flt.mul Flt.infinity
      have := hf.inf
      simp only [if_true, if_neg (by omega : ¬ f.inf = 0), hx]
      exact inf_iff hp1
    · rw [datum_fin t hk hkl]
      unfold ProductIs Flt.mul Flt.infinity
      simp only [if_true, ne_eq, magnitude_eq_zero hp1, hx]
      by_cases h0 : k = 0
      · simp only [h0, if_true, true_implies, not_true_eq_false, false_implies, and_true]
        exact nan_iff hp1
      · simp only [h0, if_false, true_implies, not_false_eq_true, false_implies, true_and]
        exact inf_iff hp1
  · rw [datum_fin s hj hjl]
    rcases flt_kinds y with rfl | ⟨t, rfl⟩ | ⟨t, k, hk, hkl, rfl⟩
    · exact nan_iff hp1
    · rw [datum_inf]
      unfold ProductIs Flt.mul Flt.infinity
      simp only [Nat.ne_of_lt hjl, if_true, if_false, ne_eq, magnitude_eq_zero hp1, hx]
      by_cases h0 : j = 0
      · simp only [h0, if_true, true_implies, not_true_eq_false, false_implies, and_true]
        exact nan_iff hp1
      · simp only [h0, if_false, true_implies, not_false_eq_true, false_implies, true_and]
        exact inf_iff hp1
    · rw [datum_fin t hk hkl]
      unfold ProductIs Flt.mul
      simp only [Nat.ne_of_lt hjl, Nat.ne_of_lt hkl, if_false, hx]
      rw [← nearestTo_iff hp _ _ _ (Nat.mul_pos (Nat.pow_pos (by decide)) (Nat.pow_pos (by decide)))]
      unfold magnitude
      rw [div_mul_div_comm]
      push_cast
      rfl

/-- **C99.** Division. -/
theorem C99_div (hf : UsedFormat f) (x y z : Flt f) : x.div y = z ↔ QuotientIs z (datum x) (datum y) := by
  have hp := hf.p
  have hp1 : 1 ≤ f.p := by omega
  have hx : ∀ s t : Bool, (s != t) = (s ^^ t) := by decide
  rcases flt_kinds x with rfl | ⟨s, rfl⟩ | ⟨s, j, hj, hjl, rfl⟩
  · exact nan_iff hp1
  · rw [datum_inf]
    rcases flt_kinds y with rfl | ⟨t, rfl⟩ | ⟨t, k, hk, hkl, rfl⟩
    · exact nan_iff hp1
    · rw [datum_inf]
      unfold QuotientIs Flt.div Flt.infinity
      simp only [if_true]
      exact nan_iff hp1
    · rw [datum_fin t hk hkl]
      unfold QuotientIs Flt.div Flt.infinity
      simp only [if_true, Nat.ne_of_lt hkl, if_false, hx]
      exact inf_iff hp1
  · rw [datum_fin s hj hjl]
    rcases flt_kinds y with rfl | ⟨t, rfl⟩ | ⟨t, k, hk, hkl, rfl⟩
    · exact nan_iff hp1
    · rw [datum_inf]
      unfold QuotientIs Flt.div Flt.infinity
      simp only [Nat.ne_of_lt hjl, if_true, if_false, hx]
      rw [fin_iff hp1 hf.inf, magnitude_zero]
    · rw [datum_fin t hk hkl]
      unfold QuotientIs Flt.div
      simp only [Nat.ne_of_lt hjl, Nat.ne_of_lt hkl, if_false, hx, ne_eq, magnitude_eq_zero hp1]
      by_cases h0 : k = 0
      · by_cases h1 : j = 0
        · simp only [h0, h1, if_true, true_implies, not_true_eq_false, false_implies, and_true, true_and]
          exact nan_iff hp1
        · simp only [h0, h1, if_true, if_false, true_implies, not_true_eq_false, not_false_eq_true, false_implies, true_and]
          exact inf_iff hp1
      · simp only [h0, if_false, true_implies, not_false_eq_true, false_implies, and_true]
        rw [← nearestTo_iff hp _ _ _ (Fmt.val_pos f hp1 (Nat.pos_of_ne_zero h0))]
        unfold magnitude
        rw [div_div_div_cancel_right₀ (by positivity : (2 : ℚ) ^ f.u ≠ 0)]

/-- **C99.** Comparisons. -/
theorem C99_lt (hf : UsedFormat f) (x y : Flt f) : x.flt y = true ↔ Less (datum x) (datum y) := by
  have hp1 : 1 ≤ f.p := by have := hf.p; omega
  rcases flt_kinds x with rfl | ⟨s, rfl⟩ | ⟨s, j, hj, hjl, rfl⟩
  · simp [Flt.flt, Less, datum]
  · rw [datum_inf]
    rcases flt_kinds y with rfl | ⟨t, rfl⟩ | ⟨t, k, hk, hkl, rfl⟩
    · simp [Flt.flt, Less, datum, Flt.infinity]
    · rw [datum_inf]
      cases s <;> cases t <;> simp [Flt.flt, Less, Flt.infinity, hf.inf]
    · rw [datum_fin t hk hkl]
      have := hf.inf
      cases s <;> cases t <;> simp [Flt.flt, Less, Flt.infinity] <;> omega
  · rw [datum_fin s hj hjl]
    rcases flt_kinds y with rfl | ⟨t, rfl⟩ | ⟨t, k, hk, hkl, rfl⟩
    · simp [Flt.flt, Less, datum]
    · rw [datum_inf]
      have := hf.inf
      cases s <;> cases t <;> simp [Flt.flt, Less, Flt.infinity] <;> omega
    · rw [datum_fin t hk hkl]
      have mj := magnitude_nonneg (f := f) j
      have mk := magnitude_nonneg (f := f) k
      have hj0 : 0 < j ↔ 0 < magnitude f j := by rw [← magnitude_zero (f := f), magnitude_lt_iff hp1]
      have hk0 : 0 < k ↔ 0 < magnitude f k := by rw [← magnitude_zero (f := f), magnitude_lt_iff hp1]
      cases s <;> cases t
      · simp [Flt.flt, Less, signed, magnitude_lt_iff hp1]
      · simp only [Flt.flt, Less, signed, if_true, if_false, Bool.false_eq_true, false_iff, not_lt]
        linarith
      · simp only [Flt.flt, Less, signed, if_true, if_false, Bool.false_eq_true, Bool.or_eq_true, decide_eq_true_eq, hj0, hk0]
        constructor
        · rintro (h | h) <;> linarith
        · intro h
          by_contra hh
          push Not at hh
          linarith
      · simp [Flt.flt, Less, signed, magnitude_lt_iff hp1]

theorem C99_eq (hf : UsedFormat f) (x y : Flt f) : x.feq y = true ↔ Equal (datum x) (datum y) := by
  have hp1 : 1 ≤ f.p := by have := hf.p; omega
  rcases flt_kinds x with rfl | ⟨s, rfl⟩ | ⟨s, j, hj, hjl, rfl⟩
  · simp [Flt.feq, Equal, datum]
  · rw [datum_inf]
    rcases flt_kinds y with rfl | ⟨t, rfl⟩ | ⟨t, k, hk, hkl, rfl⟩
    · simp [Flt.feq, Equal, datum, Flt.infinity]
    · rw [datum_inf]
      have := hf.inf
      cases s <;> cases t <;> simp [Flt.feq, Equal, Flt.infinity] <;> omega
    · rw [datum_fin t hk hkl]
      simp [Flt.feq, Equal, Flt.infinity, (Nat.ne_of_lt hkl).symm]
  · rw [datum_fin s hj hjl]
    rcases flt_kinds y with rfl | ⟨t, rfl⟩ | ⟨t, k, hk, hkl, rfl⟩
    · simp [Flt.feq, Equal, datum]
    · rw [datum_inf]
      simp [Flt.feq, Equal, Flt.infinity, Nat.ne_of_lt hjl]
    · rw [datum_fin t hk hkl]
      have mj := magnitude_nonneg (f := f) j
      have mk := magnitude_nonneg (f := f) k
      have key : (magnitude f j = -magnitude f k ↔ j = k ∧ j = 0) ∧ (-magnitude f j = magnitude f k ↔ j = k ∧ j = 0) := by
        constructor
        · constructor
          · intro h
            have h1 : magnitude f j = 0 := by linarith
            have h2 : magnitude f k = 0 := by linarith
            rw [magnitude_eq_zero hp1] at h1 h2
            omega
          · rintro ⟨rfl, rfl⟩; simp [magnitude_zero]
        · constructor
          · intro h
            have h1 : magnitude f j = 0 := by linarith
            have h2 : magnitude f k = 0 := by linarith
            rw [magnitude_eq_zero hp1] at h1 h2
            omega
          · rintro ⟨rfl, rfl⟩; simp [magnitude_zero]
      cases s <;> cases t <;> simp [Flt.feq, Equal, signed, magnitude_inj hp1, key]

/-- **C99.** Conversion between the formats. -/
theorem C99_cast (hg : UsedFormat g) (x : Flt f) (z : Flt g) : Flt.cast g x = z ↔ Converted z (datum x) := by
  have hp1 : 1 ≤ g.p := by have := hg.p; omega
  rcases flt_kinds x with rfl | ⟨s, rfl⟩ | ⟨s, j, hj, hjl, rfl⟩
  · exact nan_iff hp1
  · rw [datum_inf]
    unfold Converted Flt.cast Flt.infinity
    simp only [if_true]
    exact inf_iff hp1
  · rw [datum_fin s hj hjl]
    unfold Converted Flt.cast
    simp only [Nat.ne_of_lt hjl, if_false]
    rw [← nearestTo_iff hg.p _ _ _ (Nat.pow_pos (by decide))]
    unfold magnitude
    push_cast
    rfl

/-- **C99.** Rounding to whole numbers. -/
theorem C99_round (hf : UsedFormat f) (x : Flt f) : ToWhole x.roundInt (datum x) := by
  have hp1 : 1 ≤ f.p := by have := hf.p; omega
  rcases flt_kinds x with rfl | ⟨s, rfl⟩ | ⟨s, j, hj, hjl, rfl⟩
  · rfl
  · rw [datum_inf]
    unfold ToWhole Flt.roundInt Flt.infinity
    simp only [if_true]
    exact datum_inf s
  · rw [datum_fin s hj hjl]
    obtain ⟨k, hk, hkl, e, hv⟩ := roundInt_num f hp1 hf.big s j hj (Nat.ne_of_lt hjl)
    rw [e]
    refine ⟨Flt.magRound f j, ?_, ?_, ?_⟩
    · rw [datum_fin s hk (by omega)]
      unfold magnitude
      rw [hv]
      push_cast
      rw [mul_div_assoc, div_self (by positivity), mul_one]
    · have h1 : Flt.magRound f j * 2 ^ (f.u + 1) ≤ 2 * f.val j + 2 ^ f.u := Nat.div_mul_le_self _ _
      have h2 : (Flt.magRound f j : ℚ) * 2 ^ (f.u + 1) ≤ 2 * f.val j + 2 ^ f.u := by exact_mod_cast h1
      unfold magnitude
      rw [le_div_iff₀ (by positivity)]
      rw [pow_succ] at h2
      linarith
    · have h1 : 2 * f.val j + 2 ^ f.u < (Flt.magRound f j + 1) * 2 ^ (f.u + 1) := by
        rw [Nat.mul_comm (Flt.magRound f j + 1)]
        exact Nat.lt_mul_div_succ _ (by positivity)
      have h2 : 2 * (f.val j : ℚ) + 2 ^ f.u < (Flt.magRound f j + 1) * 2 ^ (f.u + 1) := by exact_mod_cast h1
      unfold magnitude
      rw [div_lt_iff₀ (by positivity)]
      rw [pow_succ] at h2
      linarith

theorem trunc_spec (k : Nat) : ((f.val k / 2 ^ f.u : Nat) : ℚ) ≤ magnitude f k ∧ magnitude f k < (f.val k / 2 ^ f.u : Nat) + 1 := by
  have h1 : f.val k / 2 ^ f.u * 2 ^ f.u ≤ f.val k := Nat.div_mul_le_self _ _
  have h2 : f.val k < (f.val k / 2 ^ f.u + 1) * 2 ^ f.u := by
    rw [Nat.mul_comm]
    exact Nat.lt_mul_div_succ _ (by positivity)
  generalize f.val k / 2 ^ f.u = q at *
  unfold magnitude
  constructor
  · rw [le_div_iff₀ (by positivity)]
    exact_mod_cast h1
  · rw [div_lt_iff₀ (by positivity)]
    exact_mod_cast h2

/-- **C99.** Casts to integers. -/
theorem C99_i32 (x : Flt f) : Truncated (-(2 ^ 31)) (2 ^ 31 - 1) x.toI32 (datum x) := by
  rcases flt_kinds x with rfl | ⟨s, rfl⟩ | ⟨s, j, hj, hjl, rfl⟩
  · rfl
  · rw [datum_inf]
    unfold Truncated Flt.toI32 Flt.infinity
    simp only [if_true]
  · rw [datum_fin s hj hjl]
    refine ⟨f.val j / 2 ^ f.u, (trunc_spec j).1, (trunc_spec j).2, ?_⟩
    unfold Flt.toI32
    simp only [Nat.ne_of_lt hjl, if_false]
    generalize f.val j / 2 ^ f.u = n
    cases s
    · simp only [Bool.false_eq_true, if_false]; omega
    · simp only [if_true]; omega

theorem C99_u64 (x : Flt f) : Truncated 0 (2 ^ 64 - 1) x.toU64 (datum x) := by
  rcases flt_kinds x with rfl | ⟨s, rfl⟩ | ⟨s, j, hj, hjl, rfl⟩
  · rfl
  · rw [datum_inf]
    unfold Truncated Flt.toU64 Flt.infinity
    cases s <;> simp
  · rw [datum_fin s hj hjl]
    refine ⟨f.val j / 2 ^ f.u, (trunc_spec j).1, (trunc_spec j).2, ?_⟩
    unfold Flt.toU64
    simp only [Nat.ne_of_lt hjl, if_false]
    generalize f.val j / 2 ^ f.u = n
    cases s
    · simp only [Bool.false_eq_true, if_false]; omega
    · simp only [if_true]; omega

/-- **C99.** Negation. -/
theorem C99_neg (x : Flt f) : datum x.neg = opposite (datum x) := datum_neg x

/-- **C99.** Integers as floats. -/
theorem C99_int (hf : UsedFormat f) (i : Int) (z : Flt f) : Flt.ofInt f i = z ↔ NearestTo (i < 0) |(i : ℚ)| z := by
  have := nearestTo_iff hf.p (decide (i < 0)) i.natAbs 1 Nat.one_pos z
  rw [Nat.cast_one, div_one, Nat.cast_natAbs, Int.cast_abs] at this
  exact this.symm

/-- **C99.** Square root, of formats with enough small numbers. -/
theorem C99_sqrt (hf : UsedFormat f) (hu : 2 * f.p ≤ f.u) (x z : Flt f) : x.sqrt = z ↔ RootIs z (datum x) := by
  have hp1 : 1 ≤ f.p := by have := hf.p; omega
  rcases flt_kinds x with rfl | ⟨s, rfl⟩ | ⟨s, j, hj, hjl, rfl⟩
  · exact nan_iff hp1
  · rw [datum_inf]
    have hi := hf.inf
    unfold Flt.sqrt Flt.infinity RootIs
    cases s
    · simp only [Nat.ne_of_gt hi, if_false, Bool.false_eq_true, if_true]
      exact inf_iff hp1
    · simp only [Nat.ne_of_gt hi, if_false, if_true]
      exact nan_iff hp1
  · rw [datum_fin s hj hjl]
    unfold Flt.sqrt RootIs
    by_cases h0 : j = 0
    · subst h0
      simp only [if_true, magnitude_zero, ne_eq, not_true_eq_false, false_implies, and_true, true_implies]
      rw [fin_iff hp1 hjl, magnitude_zero]
    · have hm : magnitude f j ≠ 0 := fun h => h0 ((magnitude_eq_zero hp1).1 h)
      simp only [h0, hm, if_false, Nat.ne_of_lt hjl, ne_eq, not_false_eq_true, true_implies, false_implies, true_and]
      cases s
      · simp only [Bool.false_eq_true, if_false, false_implies, true_and, true_implies]
        have key := sqrt_reads (f := f) hf.p hu (Fmt.val_pos f hp1 (Nat.pos_of_ne_zero h0))
        constructor
        · rintro rfl
          exact ⟨_, f.round_le _ _, rfl, (key _ (f.round_le _ _)).2 rfl⟩
        · rintro ⟨k, h, rfl, hr⟩
          have := (key k h).1 hr
          unfold Flt.ofFrac
          simp only [this]
      · simp only [if_true, true_implies, reduceCtorEq, false_implies, and_true]
        exact nan_iff hp1

theorem line_iff (a b c : F64) (x y z : F32) : F64.to32 (a * x.to64 + b * y.to64 + c) = z ↔ LineIs a b c x y z := by
  unfold LineIs
  constructor
  · intro h
    exact ⟨_, _, _, _, _, _, (C99_cast used64 x _).1 rfl, (C99_cast used64 y _).1 rfl, (C99_mul used64 _ _ _).1 rfl,
      (C99_mul used64 _ _ _).1 rfl, (C99_add used64 _ _ _).1 rfl, (C99_add used64 _ _ _).1 rfl, (C99_cast used32 _ _).1 h⟩
  · rintro ⟨X, Y, P, Q, R, S, h1, h2, h3, h4, h5, h6, h7⟩
    rw [← C99_cast used64] at h1 h2
    rw [← C99_mul used64] at h3 h4
    rw [← C99_add used64] at h5 h6
    rw [← C99_cast used32] at h7
    subst h1 h2 h3 h4 h5 h6 h7
    rfl

/-- **C99.** A point is transformed by these operations, whatever its coordinates and the matrix: also if some of
them are infinite or no numbers. -/
theorem C99_transform (A : Affine) (x y x' y' : F32) :
    A.app32 x y = (x', y') ↔ LineIs A.a A.c A.e x y x' ∧ LineIs A.b A.d A.f x y y' := by
  rw [← line_iff, ← line_iff]
  exact Prod.mk.injEq _ _ _ _ ▸ Iff.rfl

/-- Zero times infinity, opposite infinities, and zeros of both signs. -/
example : Flt.mul (Flt.zero : F32) (Flt.infinity true) = .nan ∧ Flt.add (Flt.infinity true : F64) (Flt.infinity false) = .nan ∧
    Flt.add (Flt.negZero : F32) Flt.zero = Flt.zero ∧ Flt.add (Flt.negZero : F32) Flt.negZero = Flt.negZero ∧
    Flt.flt (Flt.negZero : F32) Flt.zero = false ∧ Flt.feq (Flt.negZero : F32) Flt.zero = true := by decide +kernel

/-- A square and its root, and the root of two, which is no float. -/
example : Flt.sqrt (Flt.ofInt b64 144) = Flt.ofInt b64 12 ∧ Flt.sqrt (Flt.ofInt b64 2) = Flt.ofFrac b64 false 6369051672525773 4503599627370496 ∧
    2 * b64.p ≤ b64.u := by decide +kernel

end GP
