import Verif.Float.Round
/-!
# Exact cases of the arithmetic operations

When the exact result of an operation is a finite float, the operation returns it (up to the sign
of zero).  `Exact x v` says that `x` is finite and has the value `v` in units of `2^(-u)`.
-/
namespace Fl
open Fmt

/-- `x` is finite with value `v` units. -/
def Exact {f : Fmt} (x : Flt f) (v : Int) : Prop := x.isFinite = true ∧ x.sval = v

variable {f g : Fmt}

theorem Exact.of_finite {x : Flt f} (h : x.isFinite = true) : Exact x x.sval := ⟨h, rfl⟩

/-- A finite float as sign and ordinal. -/
theorem finite_num {x : Flt f} (h : x.isFinite = true) : ∃ s k hk, x = .num s k hk ∧ k < f.inf := by
  cases x with
  | nan => simp [Flt.isFinite] at h
  | num s k hk => exact ⟨s, k, hk, rfl, by simpa [Flt.isFinite] using h⟩

theorem sval_natAbs (s : Bool) (k : Nat) (h : k ≤ f.inf) : (Flt.sval (.num s k h)).natAbs = f.val k := by
  unfold Flt.sval
  cases s <;> simp

/-- Two finite floats of the same value are equal up to the sign of zero. -/
theorem normZero_eq_of_sval (hp : 1 ≤ f.p) {x y : Flt f} {v : Int} (hx : Exact x v) (hy : Exact y v) :
    x.normZero = y.normZero := by
  obtain ⟨hx1, hx2⟩ := hx
  obtain ⟨hy1, hy2⟩ := hy
  obtain ⟨s, k, hk, rfl, hkl⟩ := finite_num hx1
  obtain ⟨s', k', hk', rfl, hkl'⟩ := finite_num hy1
  have hkk : k = k' := by
    apply val_inj f hp
    rw [← sval_natAbs s k hk, ← sval_natAbs s' k' hk', hx2, hy2]
  subst hkk
  unfold Flt.normZero
  rcases Nat.eq_zero_or_pos k with h0 | h0
  · subst h0; simp
  · have hv := val_pos f hp h0
    have : s = s' := by
      rw [← hy2] at hx2
      unfold Flt.sval at hx2
      cases s <;> cases s' <;> simp at hx2 ⊢ <;> omega
    rw [this]

theorem exact_num {s : Bool} {k : Nat} {hk : k ≤ f.inf} (h : k < f.inf) :
    Exact (.num s k hk) (if s then -(f.val k : Int) else f.val k) := ⟨by simp [Flt.isFinite, h], rfl⟩

/-- Rounding a fraction that is a finite float. -/
theorem ofFrac_exact (hp : 1 ≤ f.p) {n d k : Nat} (neg : Bool) (hd : 0 < d) (hk : k < f.inf)
    (h : n * 2 ^ f.u = f.val k * d) : Flt.ofFrac f neg n d = .num neg k (Nat.le_of_lt hk) := by
  unfold Flt.ofFrac
  have := round_val f hp hd (Nat.le_of_lt hk) h
  simp only [this]

/-- If some finite float has the exact value of a sum, the sum has that value. -/
theorem add_exact (hp : 1 ≤ f.p) {x y z : Flt f} {a b : Int} (hx : Exact x a) (hy : Exact y b)
    (hz : Exact z (a + b)) : Exact (Flt.add x y) (a + b) := by
  obtain ⟨s, k, hk, rfl, hkl⟩ := finite_num hx.1
  obtain ⟨s', k', hk', rfl, hkl'⟩ := finite_num hy.1
  obtain ⟨s'', k'', hk'', rfl, hkl''⟩ := finite_num hz.1
  unfold Flt.add
  simp only [if_neg (Nat.ne_of_lt hkl), if_neg (Nat.ne_of_lt hkl'), hx.2, hy.2]
  by_cases h0 : a + b = 0
  · rw [if_pos h0, h0]
    have hinf : 0 < f.inf := by omega
    cases s <;> cases s' <;>
      simp [Exact, Flt.isFinite, Flt.sval, Flt.zero, Flt.negZero, val_zero, hinf]
  · rw [if_neg h0]
    have hn : (a + b).natAbs = f.val k'' := by rw [← hz.2, sval_natAbs]
    rw [ofFrac_exact hp _ (Nat.pow_pos (by decide)) hkl'' (by rw [hn])]
    refine ⟨by simp [Flt.isFinite, hkl''], ?_⟩
    simp only [Flt.sval]
    rw [← hn]
    by_cases hneg : a + b < 0 <;> simp [hneg] <;> omega

/-- If some finite float has the exact value of a product, the product has that value. -/
theorem mul_exact (hp : 1 ≤ f.p) {x y z : Flt f} {a b c : Int} (hx : Exact x a) (hy : Exact y b)
    (hz : Exact z c) (hc : c * 2 ^ f.u = a * b) : Exact (Flt.mul x y) c := by
  obtain ⟨s, k, hk, rfl, hkl⟩ := finite_num hx.1
  obtain ⟨s', k', hk', rfl, hkl'⟩ := finite_num hy.1
  obtain ⟨s'', k'', hk'', rfl, hkl''⟩ := finite_num hz.1
  unfold Flt.mul
  simp only [if_neg (Nat.ne_of_lt hkl), if_neg (Nat.ne_of_lt hkl')]
  have hU : 0 < 2 ^ f.u := Nat.pow_pos (by decide)
  have hn : f.val k'' * 2 ^ f.u = f.val k * f.val k' := by
    rw [← sval_natAbs s'' k'' hk'', ← sval_natAbs s k hk, ← sval_natAbs s' k' hk', hz.2, hx.2, hy.2,
      ← Int.natAbs_mul, ← hc, Int.natAbs_mul]
    congr 1
  rw [ofFrac_exact hp _ (Nat.mul_pos hU hU) hkl'' (by rw [← hn, Nat.mul_assoc])]
  refine ⟨by simp [Flt.isFinite, hkl''], ?_⟩
  have ha := hx.2
  have hb := hy.2
  have hn' : (f.val k'' : Int) * 2 ^ f.u = f.val k * f.val k' := by exact_mod_cast hn
  have hUi : (2 : Int) ^ f.u ≠ 0 := by
    have : ((2 ^ f.u : Nat) : Int) ≠ 0 := by omega
    simpa using this
  apply Int.eq_of_mul_eq_mul_right hUi
  rw [hc, ← ha, ← hb]
  unfold Flt.sval
  cases s <;> cases s' <;> simp [Int.neg_mul, Int.mul_neg, hn']

/-- If some finite float of `g` has the exact value of a float of `f`, conversion gives that value. -/
theorem cast_exact (hp : 1 ≤ g.p) {x : Flt f} {z : Flt g} {a c : Int} (hx : Exact x a) (hz : Exact z c)
    (hc : c * 2 ^ f.u = a * 2 ^ g.u) : Exact (Flt.cast g x) c := by
  obtain ⟨s, k, hk, rfl, hkl⟩ := finite_num hx.1
  obtain ⟨s'', k'', hk'', rfl, hkl''⟩ := finite_num hz.1
  unfold Flt.cast
  simp only [if_neg (Nat.ne_of_lt hkl)]
  have hU : 0 < 2 ^ f.u := Nat.pow_pos (by decide)
  have hV : 0 < 2 ^ g.u := Nat.pow_pos (by decide)
  have e1 : ∀ n : Nat, ((2 : Int) ^ n).natAbs = 2 ^ n := fun n =>
    (congrArg Int.natAbs (by push_cast; rfl : (2 : Int) ^ n = ((2 ^ n : Nat) : Int))).trans (Int.natAbs_natCast _)
  have hn : g.val k'' * 2 ^ f.u = f.val k * 2 ^ g.u := by
    rw [← sval_natAbs s'' k'' hk'', ← sval_natAbs s k hk, hz.2, hx.2, ← e1 f.u, ← e1 g.u,
      ← Int.natAbs_mul, ← Int.natAbs_mul, hc]
  rw [ofFrac_exact hp _ hU hkl'' hn.symm]
  refine ⟨by simp [Flt.isFinite, hkl''], ?_⟩
  have ha := hx.2
  have hn' : (g.val k'' : Int) * 2 ^ f.u = f.val k * 2 ^ g.u := by exact_mod_cast hn
  have hUi : (2 : Int) ^ f.u ≠ 0 := by
    have : ((2 ^ f.u : Nat) : Int) ≠ 0 := by omega
    simpa using this
  apply Int.eq_of_mul_eq_mul_right hUi
  rw [hc, ← ha]
  unfold Flt.sval
  cases s <;> simp [Int.neg_mul, hn']

/-- Every integer up to `2^p` in magnitude is a float, if infinity lies above. -/
theorem exists_int (hp : 1 ≤ f.p) (hinf : 2 ^ f.p * 2 ^ f.u < f.val f.inf) {i : Int}
    (h : i.natAbs ≤ 2 ^ f.p) : ∃ z : Flt f, Exact z (i * 2 ^ f.u) := by
  obtain ⟨k, hk⟩ := exists_val f hp f.u i.natAbs h
  have hkl : k < f.inf := by
    apply (val_lt_iff f hp).1
    rw [hk]
    exact Nat.lt_of_le_of_lt (Nat.mul_le_mul_right _ h) hinf
  refine ⟨.num (decide (i < 0)) k (Nat.le_of_lt hkl), by simp [Flt.isFinite, hkl], ?_⟩
  simp only [Flt.sval]
  rw [hk]
  by_cases hi : i < 0
  · simp only [hi, decide_true, if_true]
    push_cast
    rw [← Int.neg_mul]
    congr 1
    omega
  · simp only [hi, decide_false, Bool.false_eq_true, if_false]
    push_cast
    congr 1
    omega

theorem ofInt_exact (hp : 1 ≤ f.p) {z : Flt f} {i : Int} (hz : Exact z (i * 2 ^ f.u)) :
    Exact (Flt.ofInt f i) (i * 2 ^ f.u) := by
  obtain ⟨s'', k'', hk'', rfl, hkl''⟩ := finite_num hz.1
  unfold Flt.ofInt
  have e1 : ((2 : Int) ^ f.u).natAbs = 2 ^ f.u :=
    (congrArg Int.natAbs (by push_cast; rfl : (2 : Int) ^ f.u = ((2 ^ f.u : Nat) : Int))).trans (Int.natAbs_natCast _)
  have hn : i.natAbs * 2 ^ f.u = f.val k'' * 1 := by
    rw [Nat.mul_one, ← sval_natAbs s'' k'' hk'', hz.2, Int.natAbs_mul, e1]
  rw [ofFrac_exact hp _ (by decide) hkl'' hn]
  refine ⟨by simp [Flt.isFinite, hkl''], ?_⟩
  simp only [Flt.sval]
  have hn' : ((f.val k'' : Nat) : Int) = (i.natAbs : Int) * 2 ^ f.u := by
    rw [Nat.mul_one] at hn
    rw [← hn]; push_cast; rfl
  rw [hn']
  by_cases hi : i < 0
  · simp only [hi, decide_true, if_true]
    rw [← Int.neg_mul]
    congr 1
    omega
  · simp only [hi, decide_false, Bool.false_eq_true, if_false]
    congr 1
    omega

/-- Integers that are `f32`s, and integers that are `f64`s. -/
theorem ofInt_exact32 {i : Int} (h : i.natAbs ≤ 16777216) : Exact (Flt.ofInt b32 i) (i * 2 ^ b32.u) := by
  obtain ⟨z, hz⟩ := exists_int (f := b32) b32_p b32_inf_big (Nat.le_trans h (by decide))
  exact ofInt_exact b32_p hz

theorem ofInt_exact64 {i : Int} (h : i.natAbs ≤ 9007199254740992) : Exact (Flt.ofInt b64 i) (i * 2 ^ b64.u) := by
  obtain ⟨z, hz⟩ := exists_int (f := b64) b64_p b64_inf_big (Nat.le_trans h (by decide))
  exact ofInt_exact b64_p hz

theorem exact_zero (hinf : 0 < f.inf) : Exact (Flt.zero : Flt f) 0 :=
  ⟨by simp [Flt.isFinite, Flt.zero, hinf], by simp [Flt.sval, Flt.zero, val_zero]⟩

/-- `1` as a float. -/
theorem exact_one (hp : 1 ≤ f.p) (hinf : 2 ^ f.p * 2 ^ f.u < f.val f.inf) : Exact (Flt.ofInt f 1) (2 ^ f.u) := by
  have h1 : (1 : Int).natAbs ≤ 2 ^ f.p := Nat.pow_pos (by decide)
  obtain ⟨z, hz⟩ := exists_int hp hinf h1
  have := ofInt_exact hp hz
  rwa [Int.one_mul] at this

/-- `f32 as f64` keeps the value. -/
theorem to64_exact {x : F32} {v : Int} (hx : Exact x v) : Exact x.to64 (v * 2 ^ 925) := by
  obtain ⟨s, k, hk, rfl, hkl⟩ := finite_num hx.1
  obtain ⟨j, hj, hv⟩ := widens_32_64 k hkl
  have hz : Exact (.num s j (Nat.le_of_lt hj) : F64) (v * 2 ^ 925) := by
    refine ⟨by simp [Flt.isFinite, hj], ?_⟩
    rw [← hx.2]
    simp only [Flt.sval]
    have hv2 : b64.val j = b32.val k * 2 ^ 925 := by
      apply Nat.eq_of_mul_eq_mul_right (Nat.pow_pos (n := 149) (by decide : 0 < 2))
      rw [show b64.val j * 2 ^ 149 = b64.val j * 2 ^ b32.u from rfl, hv]
      rw [show b64.u = 925 + 149 from rfl, Nat.pow_add, Nat.mul_assoc]
    rw [hv2]
    cases s
    · simp only [Bool.false_eq_true, if_false]; push_cast; rfl
    · simp only [if_true]; push_cast; rw [Int.neg_mul]
  refine cast_exact b64_p hx hz ?_
  rw [show b64.u = 925 + 149 from rfl, show b32.u = 149 from rfl, Int.pow_add, Int.mul_assoc]

end Fl
