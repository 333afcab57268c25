import Verif.Float.TextLemmas
import Verif.Model.Matrix
/-!
# Arithmetic up to the signs of zeros
-/
open Fl Fl.Text
namespace GP

variable {f : Fmt}

/-- Floats that are the same without the signs of zeros are the same or both zero. -/
theorem same_or_zero {x y : Flt f} (h : x.normZero = y.normZero) :
    x = y ∨ ∃ s t, x = .num s 0 (Nat.zero_le _) ∧ y = .num t 0 (Nat.zero_le _) := by
  cases x with
  | nan => cases y with
    | nan => exact .inl rfl
    | num => cases h
  | num s k hk => cases y with
    | nan => cases h
    | num t j hj =>
      simp only [Flt.normZero, Flt.num.injEq] at h
      obtain ⟨h1, rfl⟩ := h
      by_cases h0 : k = 0
      · subst h0
        exact .inr ⟨s, t, rfl, rfl⟩
      · left
        simp only [Flt.num.injEq, and_true]
        have hk : (k != 0) = true := by simpa using h0
        rw [hk] at h1
        simpa using h1

theorem normZero_zero (s t : Bool) : (Flt.num s 0 (Nat.zero_le _) : Flt f).normZero = (Flt.num t 0 (Nat.zero_le _)).normZero := by
  simp [Flt.normZero]

theorem normZero_add_left (hf : 0 < f.inf) {x x' : Flt f} (h : x.normZero = x'.normZero) (y : Flt f) :
    (x.add y).normZero = (x'.add y).normZero := by
  rcases same_or_zero h with rfl | ⟨s, t, rfl, rfl⟩
  · rfl
  · cases y with
    | nan => rfl
    | num r k hk =>
      have h0 : ¬ (0 = f.inf) := by omega
      have hv : ∀ b : Bool, Flt.sval (Flt.num b 0 (Nat.zero_le _) : Flt f) = 0 := by
        intro b; cases b <;> simp [Flt.sval, Fmt.val_zero]
      simp only [Flt.add, h0, if_false, hv]
      split
      · rfl
      · split
        · cases s <;> cases t <;> cases r <;> rfl
        · rfl

theorem normZero_add_right (hf : 0 < f.inf) (x : Flt f) {y y' : Flt f} (h : y.normZero = y'.normZero) :
    (x.add y).normZero = (x.add y').normZero := by
  rcases same_or_zero h with rfl | ⟨s, t, rfl, rfl⟩
  · rfl
  · cases x with
    | nan => rfl
    | num r k hk =>
      have h0 : ¬ (0 = f.inf) := by omega
      have hv : ∀ b : Bool, Flt.sval (Flt.num b 0 (Nat.zero_le _) : Flt f) = 0 := by
        intro b; cases b <;> simp [Flt.sval, Fmt.val_zero]
      simp only [Flt.add, h0, if_false, hv, false_and]
      split
      · rfl
      · split
        · cases s <;> cases t <;> cases r <;> rfl
        · rfl

theorem normZero_ofFrac (hp : 1 ≤ f.p) (s t : Bool) (d : Nat) (hd : 0 < d) :
    (Flt.ofFrac f s 0 d).normZero = (Flt.ofFrac f t 0 d).normZero := by
  simp [Flt.ofFrac, Flt.normZero, round_zero hp d hd]

theorem normZero_mul_left (hp : 1 ≤ f.p) (hf : 0 < f.inf) {x x' : Flt f} (h : x.normZero = x'.normZero) (y : Flt f) :
    (x.mul y).normZero = (x'.mul y).normZero := by
  rcases same_or_zero h with rfl | ⟨s, t, rfl, rfl⟩
  · rfl
  · cases y with
    | nan => rfl
    | num r k hk =>
      have h0 : ¬ (0 = f.inf) := by omega
      simp only [Flt.mul, h0, if_false, Fmt.val_zero, Nat.zero_mul]
      split
      · rfl
      · exact normZero_ofFrac hp _ _ _ (Nat.mul_pos (Nat.two_pow_pos _) (Nat.two_pow_pos _))

theorem normZero_mul_right (hp : 1 ≤ f.p) (hf : 0 < f.inf) (x : Flt f) {y y' : Flt f} (h : y.normZero = y'.normZero) :
    (x.mul y).normZero = (x.mul y').normZero := by
  rcases same_or_zero h with rfl | ⟨s, t, rfl, rfl⟩
  · rfl
  · cases x with
    | nan => rfl
    | num r k hk =>
      have h0 : ¬ (0 = f.inf) := by omega
      simp only [Flt.mul, h0, if_false, Fmt.val_zero, Nat.mul_zero]
      split
      · rfl
      · exact normZero_ofFrac hp _ _ _ (Nat.mul_pos (Nat.two_pow_pos _) (Nat.two_pow_pos _))

theorem normZero_cast {g : Fmt} (hg : 1 ≤ g.p) (hf : 0 < f.inf) {x x' : Flt f} (h : x.normZero = x'.normZero) :
    (Flt.cast g x).normZero = (Flt.cast g x').normZero := by
  rcases same_or_zero h with rfl | ⟨s, t, rfl, rfl⟩
  · rfl
  · have h0 : ¬ (0 = f.inf) := by omega
    simp only [Flt.cast, h0, if_false, Fmt.val_zero]
    exact normZero_ofFrac hg _ _ _ (Nat.two_pow_pos _)

end GP
