import Verif.Float.Lemmas
/-! Rounding to integers. -/
namespace Fl
open Fmt

/-- The integer a finite magnitude rounds to is a magnitude of the format. -/
theorem magRound_exists (f : Fmt) (hp : 1 ≤ f.p) (k : Nat) :
    ∃ j, f.val j = Flt.magRound f k * 2 ^ f.u ∧ (j = k ∨ f.val j ≤ 2 ^ f.p * 2 ^ f.u) := by
  obtain ⟨s, m, hk, h1, h2⟩ := decomp f k
  have hpp := two_pow_p f hp
  have hv : f.val k = m * 2 ^ s := by rw [hk]; exact val_decomp f hp s m h1 (by omega)
  by_cases hs : f.u ≤ s
  · refine ⟨k, ?_, Or.inl rfl⟩
    obtain ⟨t, rfl⟩ : ∃ t, s = t + f.u := ⟨s - f.u, by omega⟩
    have e : f.val k = (m * 2 ^ t) * 2 ^ f.u := by rw [hv, Nat.pow_add, Nat.mul_assoc]
    have hu : 0 < 2 ^ f.u := Nat.pow_pos (by decide)
    unfold Flt.magRound
    rw [e, Nat.pow_succ]
    generalize 2 ^ f.u = U at *
    generalize m * 2 ^ t = A
    have : (2 * (A * U) + U) / (U * 2) = A := by
      rw [Nat.div_eq_iff (by omega)]
      constructor
      · have : A * (U * 2) = 2 * (A * U) := by rw [Nat.mul_comm U 2, ← Nat.mul_assoc, Nat.mul_comm A 2, Nat.mul_assoc]
        omega
      · have : A * (U * 2) = 2 * (A * U) := by rw [Nat.mul_comm U 2, ← Nat.mul_assoc, Nat.mul_comm A 2, Nat.mul_assoc]
        omega
    rw [this]
  · have hM : Flt.magRound f k ≤ 2 ^ f.p := by
      unfold Flt.magRound
      apply Nat.div_le_of_le_mul
      rw [hv, Nat.pow_succ]
      have hs' : 2 ^ s * 2 ≤ 2 ^ f.u := by
        rw [← Nat.pow_succ]; exact Nat.pow_le_pow_right (by decide) (by omega)
      have hm : m * 2 ^ s ≤ 2 ^ f.p * 2 ^ s := Nat.mul_le_mul_right _ (by omega)
      have h3 : 2 ^ f.p * 2 ^ s * 2 ≤ 2 ^ f.p * 2 ^ f.u := by
        rw [Nat.mul_assoc]; exact Nat.mul_le_mul_left _ hs'
      have h4 : 1 * 2 ^ f.u ≤ 2 ^ f.p * 2 ^ f.u := Nat.mul_le_mul_right _ (Nat.pow_pos (by decide))
      have h5 : 2 ^ f.u * 2 * 2 ^ f.p = 2 * (2 ^ f.p * 2 ^ f.u) := by
        rw [Nat.mul_comm (2 ^ f.u) 2, Nat.mul_assoc, Nat.mul_comm (2 ^ f.u)]
      rw [h5]
      generalize 2 ^ f.p * 2 ^ f.u = X at *
      generalize 2 ^ f.u = U at *
      generalize m * 2 ^ s = Y at *
      generalize 2 ^ f.p * 2 ^ s = Z at *
      omega
    obtain ⟨j, hj⟩ := exists_val f hp f.u _ hM
    refine ⟨j, hj, Or.inr ?_⟩
    rw [hj]
    exact Nat.mul_le_mul_right _ hM

/-- Rounding a finite number: the result in terms of its magnitude. -/
theorem roundInt_num (f : Fmt) (hp : 1 ≤ f.p) (hinf : 2 ^ f.p * 2 ^ f.u < f.val f.inf) (s : Bool) (k : Nat)
    (h : k ≤ f.inf) (hk : k ≠ f.inf) :
    ∃ j, ∃ hj : j ≤ f.inf, j ≠ f.inf ∧ Flt.roundInt (.num s k h) = .num s j hj ∧
      f.val j = Flt.magRound f k * 2 ^ f.u := by
  obtain ⟨j, e, hor⟩ := magRound_exists f hp k
  have hlt : j < f.inf := by
    rcases hor with rfl | hle
    · omega
    · exact (val_lt_iff f hp).1 (by omega)
  refine ⟨j, by omega, by omega, ?_, e⟩
  show (if k = f.inf then Flt.num s k h else Flt.ofFrac f s (Flt.magRound f k) 1) = _
  rw [if_neg hk]
  unfold Flt.ofFrac
  have : f.round (Flt.magRound f k) 1 = j := round_val f hp (by decide) (by omega) (by rw [e, Nat.mul_one])
  simp only [this]

theorem b32_inf_big : 2 ^ b32.p * 2 ^ b32.u < b32.val b32.inf := by decide +kernel
theorem b64_inf_big : 2 ^ b64.p * 2 ^ b64.u < b64.val b64.inf := by decide +kernel

/-- All floats of small magnitude, whole numbers or not, are far from infinity. -/
def Fmt.Big (f : Fmt) : Prop := 2 ^ f.p * 2 ^ f.u < f.val f.inf

theorem b32_big : b32.Big := b32_inf_big
theorem b64_big : b64.Big := b64_inf_big

theorem magRound_of_int (f : Fmt) {j M : Nat} (h : f.val j = M * 2 ^ f.u) : Flt.magRound f j = M := by
  have hu : 0 < 2 ^ f.u := Nat.pow_pos (by decide)
  unfold Flt.magRound
  rw [h, Nat.pow_succ]
  generalize 2 ^ f.u = U at *
  rw [Nat.div_eq_iff (by omega)]
  have : M * (U * 2) = 2 * (M * U) := by rw [Nat.mul_comm U 2, ← Nat.mul_assoc, Nat.mul_comm M 2, Nat.mul_assoc]
  omega

/-- Rounding is idempotent. -/
theorem roundInt_roundInt (f : Fmt) (hp : 1 ≤ f.p) (hinf : 2 ^ f.p * 2 ^ f.u < f.val f.inf) (x : Flt f) :
    x.roundInt.roundInt = x.roundInt := by
  cases x with
  | nan => rfl
  | num s k h =>
    by_cases hk : k = f.inf
    · subst hk
      simp [Flt.roundInt]
    · obtain ⟨j, hj, hji, e, hv⟩ := roundInt_num f hp hinf s k h hk
      rw [e]
      obtain ⟨j', hj', _, e', hv'⟩ := roundInt_num f hp hinf s j hj hji
      rw [e']
      rw [magRound_of_int f hv] at hv'
      have : j' = j := val_inj f hp (by rw [hv', hv])
      subst this
      rfl

end Fl
