import Verif.Float.Lemmas
/-!
# Rounding is to the nearest float, ties to even

`Fmt.round` against a definition that does not say how to compute it.
-/
namespace Fl
open Fmt

/-- How far the magnitude of ordinal `k` is from `n / d`, times `d * 2^u`. -/
def away (f : Fmt) (n d k : Nat) : Nat := (f.val k * d - n * 2 ^ f.u) + (n * 2 ^ f.u - f.val k * d)

/-- `k` is the ordinal whose magnitude is nearest to `n / d`, the even one if there are two.  Infinity counts
as the magnitude that would come after the largest one. -/
structure Nearest (f : Fmt) (n d k : Nat) : Prop where
  le : k ≤ f.inf
  near : ∀ j, j ≤ f.inf → away f n d k ≤ away f n d j
  even : ∀ j, j ≤ f.inf → j ≠ k → away f n d j = away f n d k → k % 2 = 0

/-- There is at most one. -/
theorem Nearest.unique {f : Fmt} (hp : 1 ≤ f.p) {n d a b : Nat} (hd : 0 < d) (ha : Nearest f n d a) (hb : Nearest f n d b) : a = b := by
  have key : ∀ a b, Nearest f n d a → Nearest f n d b → ¬ a < b := by
    intro a b ha hb hab
    have e : away f n d a = away f n d b := Nat.le_antisymm (ha.near b hb.le) (hb.near a ha.le)
    have ea := ha.even b hb.le (by omega) e.symm
    have eb := hb.even a ha.le (by omega) e
    have hc : a + 1 < b := by omega
    have h1 := Nat.mul_lt_mul_of_pos_right (val_strictMono f hp (show a < a + 1 by omega)) hd
    have h2 := Nat.mul_lt_mul_of_pos_right (val_strictMono f hp hc) hd
    have h3 := ha.near (a + 1) (by have := hb.le; omega)
    unfold away at e h3
    omega
  have h1 := key a b ha hb
  have h2 := key b a hb ha
  omega

/-- Where a number lies: between the magnitudes of two successive ordinals. -/
theorem roundU_spec (f : Fmt) (hp : 2 ≤ f.p) (n d : Nat) (hd : 0 < d) :
    ∃ k r D, 0 < D ∧ r < D ∧ n * 2 ^ f.u = f.val k * d + r ∧ f.val (k + 1) * d = f.val k * d + D ∧
      f.roundU n d = if 2 * r < D then k else if D < 2 * r then k + 1 else k + k % 2 := by
  have hpp := two_pow_p f (by omega)
  have hH : 0 < 2 ^ (f.p - 1) := Nat.pow_pos (by decide)
  have hHe : 2 ^ (f.p - 1) % 2 = 0 := by
    have : f.p - 1 = (f.p - 2) + 1 := by omega
    rw [this, Nat.pow_succ]
    omega
  unfold roundU
  simp only []
  generalize n * 2 ^ f.u = N
  have hs2 : ∀ s, 0 < 2 ^ s := fun s => Nat.pow_pos (by decide)
  -- the shift puts the quotient in the range of mantissas
  have hshift : (2 ^ (f.p - 1) ≤ N / (d * 2 ^ f.shift (N / d)) ∨ f.shift (N / d) = 0) ∧ N / (d * 2 ^ f.shift (N / d)) < 2 ^ f.p := by
    rw [← Nat.div_div_eq_div_mul]
    generalize N / d = t
    unfold shift
    split
    · next h => exact ⟨Or.inr rfl, by simpa using h⟩
    · next h =>
      have ht : t ≠ 0 := by have := hs2 f.p; omega
      have hl := (Nat.log2_eq_iff (n := t) (k := Nat.log2 t) ht).1 rfl
      have hlp : f.p ≤ Nat.log2 t := by
        apply Nat.le_of_not_lt
        intro hh
        have : 2 ^ (Nat.log2 t + 1) ≤ 2 ^ f.p := Nat.pow_le_pow_right (by decide) hh
        omega
      refine ⟨Or.inl ?_, ?_⟩
      · rw [Nat.le_div_iff_mul_le (hs2 _), ← Nat.pow_add]
        rw [show f.p - 1 + (Nat.log2 t - (f.p - 1)) = Nat.log2 t by omega]
        exact hl.1
      · rw [Nat.div_lt_iff_lt_mul (hs2 _), ← Nat.pow_add]
        rw [show f.p + (Nat.log2 t - (f.p - 1)) = Nat.log2 t + 1 by omega]
        exact hl.2
  generalize f.shift (N / d) = s at *
  obtain ⟨h1, h2⟩ := hshift
  have hD : 0 < d * 2 ^ s := Nat.mul_pos hd (hs2 s)
  generalize ha : N / (d * 2 ^ s) = a at *
  have e1 : f.val (s * 2 ^ (f.p - 1) + a) = a * 2 ^ s := val_decomp f (by omega) s a h1 (by omega)
  have e2 : f.val (s * 2 ^ (f.p - 1) + a + 1) = (a + 1) * 2 ^ s := by
    rw [Nat.add_assoc]
    exact val_decomp f (by omega) s (a + 1) (h1.imp (fun h => by omega) id) (by omega)
  refine ⟨s * 2 ^ (f.p - 1) + a, N % (d * 2 ^ s), d * 2 ^ s, hD, Nat.mod_lt _ hD, ?_, ?_, ?_⟩
  · have := Nat.div_add_mod N (d * 2 ^ s)
    rw [ha] at this
    rw [e1, Nat.mul_assoc, Nat.mul_comm (2 ^ s) d, Nat.mul_comm a]
    exact this.symm
  · rw [e1, e2, Nat.add_mul, Nat.add_mul, Nat.one_mul, Nat.mul_comm (2 ^ s) d]
  · unfold rne
    rw [ha]
    have : (s * 2 ^ (f.p - 1) + a) % 2 = a % 2 := by
      rw [Nat.add_mod, Nat.mul_mod, hHe]
      simp
    rw [this]
    split
    · rfl
    · split
      · omega
      · omega

/-- The rounding of the model gives the nearest float. -/
theorem round_nearest (f : Fmt) (hp : 2 ≤ f.p) (n d : Nat) (hd : 0 < d) : Nearest f n d (f.round n d) := by
  obtain ⟨k, r, D, hD, hr, e1, e2, e3⟩ := roundU_spec f hp n d hd
  have mono : ∀ {a b : Nat}, a < b → f.val a * d < f.val b * d := fun h =>
    Nat.mul_lt_mul_of_pos_right (val_strictMono f (by omega) h) hd
  -- distances, below and above
  have below : ∀ j, j < k → r < away f n d j := by
    intro j hj
    have := mono hj
    unfold away
    omega
  have above : ∀ j, k + 1 < j → D - r < away f n d j := by
    intro j hj
    have := mono hj
    unfold away
    omega
  have at0 : away f n d k = r := by unfold away; omega
  have at1 : away f n d (k + 1) = D - r := by unfold away; omega
  have tri : ∀ j, j < k ∨ j = k ∨ j = k + 1 ∨ k + 1 < j := fun j => by omega
  unfold round
  rw [e3]
  by_cases hk : f.inf ≤ k
  · -- beyond the largest float
    have : min (if 2 * r < D then k else if D < 2 * r then k + 1 else k + k % 2) f.inf = f.inf := by
      split
      · omega
      · split <;> omega
    rw [this]
    have fall : ∀ j, j < f.inf → away f n d f.inf < away f n d j := by
      intro j hj
      have h1 := mono hj
      have h2 : f.val f.inf * d ≤ f.val k * d := by
        rcases Nat.lt_or_eq_of_le hk with h | h
        · exact Nat.le_of_lt (mono h)
        · rw [h]; exact Nat.le_refl _
      unfold away
      omega
    refine ⟨Nat.le_refl _, fun j hj => ?_, fun j hj hne heq => ?_⟩
    · rcases Nat.lt_or_eq_of_le hj with h | h
      · exact Nat.le_of_lt (fall j h)
      · rw [h]; exact Nat.le_refl _
    · have := fall j (by omega)
      omega
  · by_cases c1 : 2 * r < D
    · rw [if_pos c1, Nat.min_eq_left (by omega)]
      refine ⟨by omega, fun j _ => ?_, fun j _ hne heq => ?_⟩
      · rcases tri j with h | h | h | h
        · have := below j h; omega
        · subst h; exact Nat.le_refl _
        · subst h; omega
        · have := above j h; omega
      · rcases tri j with h | h | h | h
        · have := below j h; omega
        · exact absurd h hne
        · subst h; omega
        · have := above j h; omega
    · rw [if_neg c1]
      by_cases c2 : D < 2 * r
      · rw [if_pos c2, Nat.min_eq_left (by omega)]
        refine ⟨by omega, fun j _ => ?_, fun j _ hne heq => ?_⟩
        · rcases tri j with h | h | h | h
          · have := below j h; omega
          · subst h; omega
          · subst h; exact Nat.le_refl _
          · have := above j h; omega
        · rcases tri j with h | h | h | h
          · have := below j h; omega
          · subst h; omega
          · exact absurd h hne
          · have := above j h; omega
      · rw [if_neg c2, Nat.min_eq_left (by omega)]
        have ek : (k + k % 2) % 2 = 0 := by omega
        have ea : away f n d (k + k % 2) = r := by
          rcases Nat.mod_two_eq_zero_or_one k with h | h <;> rw [h]
          · exact at0
          · rw [at1]; omega
        refine ⟨by omega, fun j _ => ?_, fun j _ _ _ => ek⟩
        rw [ea]
        rcases tri j with h | h | h | h
        · have := below j h; omega
        · subst h; omega
        · subst h; omega
        · have := above j h; omega

theorem nearest_iff (f : Fmt) (hp : 2 ≤ f.p) {n d k : Nat} (hd : 0 < d) : Nearest f n d k ↔ f.round n d = k :=
  ⟨fun h => (round_nearest f hp n d hd).unique (by omega) hd h, fun h => h ▸ round_nearest f hp n d hd⟩

theorem b32_p2 : 2 ≤ b32.p := by decide
theorem b64_p2 : 2 ≤ b64.p := by decide

/-! The operations on floats, on finite arguments: the float nearest to the exact result. -/

variable {f g : Fmt}

theorem add_nearest (hp : 2 ≤ f.p) {a b : Flt f} (ha : a.isFinite = true) (hb : b.isFinite = true) (h0 : a.sval + b.sval ≠ 0) :
    ∃ k h, a.add b = .num (decide (a.sval + b.sval < 0)) k h ∧ Nearest f (a.sval + b.sval).natAbs (2 ^ f.u) k := by
  cases a with
  | nan => simp [Flt.isFinite] at ha
  | num s k hk =>
    cases b with
    | nan => simp [Flt.isFinite] at hb
    | num s' k' hk' =>
      simp only [Flt.isFinite, decide_eq_true_eq] at ha hb
      refine ⟨_, f.round_le _ _, ?_, round_nearest f hp _ _ (Nat.pow_pos (by decide))⟩
      unfold Flt.add
      simp only []
      rw [if_neg (by omega), if_neg (by omega), if_neg h0]
      rfl

theorem mul_nearest (hp : 2 ≤ f.p) {s s' : Bool} {k k' : Nat} {hk hk'} (ha : k < f.inf) (hb : k' < f.inf) :
    ∃ j h, Flt.mul (.num s k hk : Flt f) (.num s' k' hk') = .num (s != s') j h ∧
      Nearest f (f.val k * f.val k') (2 ^ f.u * 2 ^ f.u) j := by
  refine ⟨_, f.round_le _ _, ?_, round_nearest f hp _ _ (Nat.mul_pos (Nat.pow_pos (by decide)) (Nat.pow_pos (by decide)))⟩
  unfold Flt.mul
  simp only []
  rw [if_neg (by omega), if_neg (by omega)]
  rfl

theorem div_nearest (hp : 2 ≤ f.p) {s s' : Bool} {k k' : Nat} {hk hk'} (ha : k < f.inf) (hb : k' < f.inf) (h0 : k' ≠ 0) :
    ∃ j h, Flt.div (.num s k hk : Flt f) (.num s' k' hk') = .num (s != s') j h ∧ Nearest f (f.val k) (f.val k') j := by
  refine ⟨_, f.round_le _ _, ?_, round_nearest f hp _ _ (val_pos f (by omega) (by omega))⟩
  unfold Flt.div
  simp only []
  rw [if_neg (by omega), if_neg (by omega), if_neg h0]
  rfl

theorem cast_nearest (hp : 2 ≤ g.p) {s : Bool} {k : Nat} {hk} (ha : k < f.inf) :
    ∃ j h, Flt.cast g (.num s k hk : Flt f) = .num s j h ∧ Nearest g (f.val k) (2 ^ f.u) j := by
  refine ⟨_, g.round_le _ _, ?_, round_nearest g hp _ _ (Nat.pow_pos (by decide))⟩
  unfold Flt.cast
  simp only []
  rw [if_neg (by omega)]
  rfl

theorem ofInt_nearest (hp : 2 ≤ f.p) (i : Int) : ∃ j h, Flt.ofInt f i = .num (decide (i < 0)) j h ∧ Nearest f i.natAbs 1 j :=
  ⟨_, f.round_le _ _, rfl, round_nearest f hp _ _ (by decide)⟩

end Fl
