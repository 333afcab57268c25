import Verif.Float.Round
import Verif.Model.Outline
import Verif.Spec.Numbers
/-! Lemmas on coordinate text and rounding. -/
open Fl Fl.Text
namespace Fl.Flt

theorem normZero_idem {f : Fmt} (x : Flt f) : x.normZero.normZero = x.normZero := by
  cases x with
  | nan => rfl
  | num s k h => simp [normZero]

theorem normZero_ofInt {f : Fmt} (hf : 0 < f.inf) (i : Int) : (Flt.ofInt f i).normZero = Flt.ofInt f i := by
  unfold Flt.ofInt Flt.ofFrac Flt.normZero
  simp only []
  by_cases hi : i < 0
  · have := round_pos hf (n := i.natAbs) (by omega)
    simp [hi]
    omega
  · simp [hi]

end Fl.Flt

namespace IOF

/-- A number written as text and read back has the same value, `-0` becoming `0`. -/
theorem reread_toF32 (x : IOF) : (reread x).toF32 = x.toF32.normZero := by
  cases x with
  | int i h =>
    rw [reread_int]
    exact (Flt.normZero_ofInt (by decide) i).symm
  | float f =>
    unfold reread parse IOF.text
    simp only []
    have hf := parseFloat_showFloat b32_p f
    match hi : parseI32 (showFloat f) with
    | some i =>
      have hok := parseI32_ok hi
      obtain ⟨x, hx1, hx2⟩ := parseI32_float b32_p (by decide) hi
      rw [hf] at hx1
      cases hx1
      simp [hok]
      exact hx2
    | none =>
      simp [hf]
      show f = f.normZero
      cases f with
      | nan => rfl
      | num s k h =>
        by_cases hz : s = true ∧ k = 0
        · obtain ⟨rfl, rfl⟩ := hz
          exfalso
          have : parseI32 (showFloat (Flt.num (f := b32) true 0 (Nat.zero_le _))) = some 0 := by
            decide +kernel
          rw [this] at hi
          cases hi
        · unfold Flt.normZero
          cases s <;> simp at hz ⊢
          omega

end IOF

namespace GP
open Spec

theorem magRound_bounds (f : Fmt) (k : Nat) :
    2 * (Flt.magRound f k * 2 ^ f.u) ≤ 2 * f.val k + 2 ^ f.u ∧
      2 * f.val k < 2 * (Flt.magRound f k * 2 ^ f.u) + 2 ^ f.u := by
  unfold Flt.magRound
  rw [Nat.pow_succ]
  have hU : 0 < 2 ^ f.u := Nat.pow_pos (by decide)
  generalize 2 ^ f.u = U at *
  generalize f.val k = v at *
  have h1 := Nat.div_mul_le_self (2 * v + U) (U * 2)
  have h2 := Nat.lt_div_mul_add (a := 2 * v + U) (b := U * 2) (by omega)
  generalize (2 * v + U) / (U * 2) = q at *
  have : q * (U * 2) = 2 * (q * U) := by rw [← Nat.mul_assoc, Nat.mul_comm]
  omega

theorem roundInt_spec (x : F32) : RoundsTo x x.roundInt := by
  cases x with
  | nan => rfl
  | num s k h =>
    by_cases hk : k = b32.inf
    · subst hk
      left
      exact ⟨rfl, by simp [Flt.roundInt]⟩
    · right
      obtain ⟨j, hj, hji, e, hv⟩ := roundInt_num b32 b32_p b32_inf_big s k h hk
      exact ⟨hk, Flt.magRound b32 k, j, hj, hji, e, hv, magRound_bounds b32 k⟩

theorem roundInt_idem (x : F32) : x.roundInt.roundInt = x.roundInt :=
  roundInt_roundInt b32 b32_p b32_inf_big x

end GP
