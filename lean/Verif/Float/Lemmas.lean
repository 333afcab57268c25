import Verif.Float.Core
/-! Exactness of rounding on representable magnitudes. -/
namespace Fl

theorem rne_exact {m b : Nat} (hb : 0 < b) : rne (m * b) b = m := by
  unfold rne
  have h1 : m * b % b = 0 := Nat.mul_mod_left m b
  have h2 : m * b / b = m := Nat.mul_div_cancel m hb
  rw [h1, h2]
  simp [hb]

namespace Fmt

/-- `val` on the standard decomposition. -/
theorem val_decomp (f : Fmt) (_hp : 1 ≤ f.p) (s m : Nat) (h1 : 2 ^ (f.p - 1) ≤ m ∨ s = 0)
    (h2 : m ≤ 2 ^ f.p) : f.val (s * 2 ^ (f.p - 1) + m) = m * 2 ^ s := by
  have hpp : 2 ^ f.p = 2 * 2 ^ (f.p - 1) := by
    have : f.p = (f.p - 1) + 1 := by omega
    conv => lhs; rw [this, Nat.pow_succ]
    omega
  have hH : 0 < 2 ^ (f.p - 1) := Nat.pow_pos (by decide)
  generalize hHe : 2 ^ (f.p - 1) = H at *
  unfold val
  rw [hHe]
  by_cases hm : m < H
  · have hs : s = 0 := by
      rcases h1 with h | h
      · omega
      · exact h
    subst hs
    simp [hm]
  · have hm' : H ≤ m := by omega
    have hnlt : ¬ (s * H + m < H) := by
      have : 0 ≤ s * H := Nat.zero_le _
      omega
    rw [if_neg hnlt]
    by_cases hm2 : m < 2 * H
    · have e : s * H + m = (m - H) + H * (s + 1) := by
        rw [Nat.mul_add, Nat.mul_comm H s]; omega
      rw [e, Nat.add_mul_mod_self_left, Nat.add_mul_div_left _ _ hH,
        Nat.mod_eq_of_lt (by omega), Nat.div_eq_of_lt (by omega)]
      simp only [Nat.zero_add, Nat.add_sub_cancel]
      congr 1
      omega
    · have hm3 : m = 2 * H := by omega
      have e : s * H + m = 0 + H * (s + 2) := by
        rw [Nat.mul_add, Nat.mul_comm H s]; omega
      rw [e, Nat.add_mul_mod_self_left, Nat.add_mul_div_left _ _ hH]
      have : 0 / H + (s + 2) - 1 = s + 1 := by simp
      rw [this, hm3, Nat.zero_mod, Nat.zero_add, Nat.pow_succ]
      rw [Nat.mul_comm (2 ^ s) 2, ← Nat.mul_assoc, Nat.mul_comm H 2]

/-- Every ordinal decomposes. -/
theorem decomp (f : Fmt) (k : Nat) :
    ∃ s m, k = s * 2 ^ (f.p - 1) + m ∧ (2 ^ (f.p - 1) ≤ m ∨ s = 0) ∧ m < 2 * 2 ^ (f.p - 1) := by
  have hH : 0 < 2 ^ (f.p - 1) := Nat.pow_pos (by decide)
  generalize 2 ^ (f.p - 1) = H at *
  by_cases h : k < H
  · exact ⟨0, k, by omega, Or.inr rfl, by omega⟩
  · refine ⟨k / H - 1, k % H + H, ?_, Or.inl (by omega), ?_⟩
    · have h1 : 1 ≤ k / H := (Nat.le_div_iff_mul_le hH).2 (by omega)
      have h2 := Nat.div_add_mod k H
      have h3 : (k / H - 1) * H + H = k / H * H := by
        have : k / H = (k / H - 1) + 1 := by omega
        conv => rhs; rw [this, Nat.add_mul]
        omega
      rw [Nat.mul_comm] at h2
      omega
    · have := Nat.mod_lt k hH
      omega

theorem two_pow_p (f : Fmt) (hp : 1 ≤ f.p) : 2 ^ f.p = 2 * 2 ^ (f.p - 1) := by
  have : f.p = (f.p - 1) + 1 := by omega
  conv => lhs; rw [this, Nat.pow_succ]
  omega

/-- The shift chosen for an exactly representable magnitude. -/
theorem shift_decomp (f : Fmt) (hp : 1 ≤ f.p) (s m : Nat) (h1 : 2 ^ (f.p - 1) ≤ m ∨ s = 0)
    (h2 : m < 2 * 2 ^ (f.p - 1)) : f.shift (m * 2 ^ s) = s := by
  have hpp := two_pow_p f hp
  unfold shift
  by_cases hs : s = 0
  · subst hs
    simp only [Nat.pow_zero, Nat.mul_one]
    rw [if_pos (by omega)]
  · have hm : 2 ^ (f.p - 1) ≤ m := by
      rcases h1 with h | h
      · exact h
      · exact absurd h hs
    have h2s : 2 ≤ 2 ^ s := by
      have : 2 ^ 1 ≤ 2 ^ s := Nat.pow_le_pow_right (by decide) (by omega)
      simpa using this
    have hge : ¬ (m * 2 ^ s < 2 ^ f.p) := by
      have : 2 ^ (f.p - 1) * 2 ≤ m * 2 ^ s := Nat.mul_le_mul hm h2s
      omega
    rw [if_neg hge]
    have hlog : Nat.log2 (m * 2 ^ s) = (f.p - 1) + s := by
      have hne : m * 2 ^ s ≠ 0 := by
        have : 0 < 2 ^ f.p := Nat.pow_pos (by decide)
        omega
      apply (Nat.log2_eq_iff hne).2
      constructor
      · rw [Nat.pow_add]; exact Nat.mul_le_mul_right _ hm
      · have : m * 2 ^ s < (2 * 2 ^ (f.p - 1)) * 2 ^ s :=
          Nat.mul_lt_mul_of_pos_right h2 (Nat.pow_pos (by decide))
        have e : 2 ^ (f.p - 1 + s + 1) = (2 * 2 ^ (f.p - 1)) * 2 ^ s := by
          rw [Nat.pow_succ, Nat.pow_add, Nat.mul_comm _ 2, Nat.mul_assoc]
        omega
    rw [hlog]; omega

/-- Rounding an exactly representable value gives its ordinal. -/
theorem roundU_val (f : Fmt) (hp : 1 ≤ f.p) {n d k : Nat} (hd : 0 < d)
    (h : n * 2 ^ f.u = f.val k * d) : f.roundU n d = k := by
  obtain ⟨s, m, hk, h1, h2⟩ := decomp f k
  have hpp := two_pow_p f hp
  have hv : f.val k = m * 2 ^ s := by rw [hk]; exact val_decomp f hp s m h1 (by omega)
  unfold roundU
  simp only []
  rw [h, Nat.mul_div_cancel _ hd, hv, shift_decomp f hp s m h1 h2]
  have : m * 2 ^ s * d = m * (d * 2 ^ s) := by
    rw [Nat.mul_assoc, Nat.mul_comm (2 ^ s) d]
  rw [this, rne_exact (Nat.mul_pos hd (Nat.pow_pos (by decide))), hk]

theorem round_val (f : Fmt) (hp : 1 ≤ f.p) {n d k : Nat} (hd : 0 < d) (hk : k ≤ f.inf)
    (h : n * 2 ^ f.u = f.val k * d) : f.round n d = k := by
  unfold round
  rw [roundU_val f hp hd h]
  exact Nat.min_eq_left hk

/-- Every `m * 2^s` with `m ≤ 2^p` is the magnitude of some ordinal. -/
theorem exists_val (f : Fmt) (hp : 1 ≤ f.p) : ∀ (s m : Nat), m ≤ 2 ^ f.p →
    ∃ k, f.val k = m * 2 ^ s := by
  intro s
  induction s with
  | zero =>
    intro m hm
    exact ⟨0 * 2 ^ (f.p - 1) + m, val_decomp f hp 0 m (Or.inr rfl) hm⟩
  | succ s ih =>
    intro m hm
    by_cases h : 2 ^ (f.p - 1) ≤ m
    · exact ⟨(s + 1) * 2 ^ (f.p - 1) + m, val_decomp f hp (s + 1) m (Or.inl h) hm⟩
    · have hpp := two_pow_p f hp
      obtain ⟨k, hk⟩ := ih (2 * m) (by omega)
      refine ⟨k, ?_⟩
      rw [hk, Nat.pow_succ, Nat.mul_comm 2 m, Nat.mul_assoc, Nat.mul_comm 2 (2 ^ s)]

theorem val_mono_step (f : Fmt) (hp : 1 ≤ f.p) (k : Nat) : f.val k < f.val (k + 1) := by
  obtain ⟨s, m, hk, h1, h2⟩ := decomp f k
  have hpp := two_pow_p f hp
  have e1 : f.val k = m * 2 ^ s := by rw [hk]; exact val_decomp f hp s m h1 (by omega)
  have e2 : f.val (k + 1) = (m + 1) * 2 ^ s := by
    rw [hk, Nat.add_assoc]
    exact val_decomp f hp s (m + 1) (h1.imp (fun h => by omega) id) (by omega)
  rw [e1, e2, Nat.add_mul]
  have : 0 < 2 ^ s := Nat.pow_pos (by decide)
  omega

theorem val_strictMono (f : Fmt) (hp : 1 ≤ f.p) {a b : Nat} (h : a < b) : f.val a < f.val b := by
  induction b with
  | zero => omega
  | succ b ih =>
    have hs := val_mono_step f hp b
    by_cases h' : a = b
    · subst h'; exact hs
    · exact Nat.lt_trans (ih (by omega)) hs

theorem val_inj (f : Fmt) (hp : 1 ≤ f.p) {a b : Nat} (h : f.val a = f.val b) : a = b := by
  rcases Nat.lt_trichotomy a b with h' | h' | h'
  · have := val_strictMono f hp h'; omega
  · exact h'
  · have := val_strictMono f hp h'; omega

theorem val_lt_iff (f : Fmt) (hp : 1 ≤ f.p) {a b : Nat} : f.val a < f.val b ↔ a < b := by
  constructor
  · intro h
    rcases Nat.lt_trichotomy a b with h' | h' | h'
    · exact h'
    · subst h'; omega
    · have := val_strictMono f hp h'; omega
  · exact val_strictMono f hp

theorem val_zero (f : Fmt) : f.val 0 = 0 := by
  unfold val
  simp [Nat.pow_pos]

theorem val_pos (f : Fmt) (hp : 1 ≤ f.p) {k : Nat} (h : 0 < k) : 0 < f.val k := by
  have := val_strictMono f hp h
  rwa [val_zero] at this

end Fmt

/-- Hypotheses on a format needed by the generic lemmas. -/
theorem b32_p : 1 ≤ b32.p := by decide
theorem b64_p : 1 ≤ b64.p := by decide

/-- The exact value of every `f32` magnitude is an `f64` magnitude. -/
theorem widen_exact (k : Nat) : ∃ j, b64.val j = b32.val k * 2 ^ 925 := by
  obtain ⟨s, m, hk, h1, h2⟩ := Fmt.decomp b32 k
  have hv : b32.val k = m * 2 ^ s := by
    rw [hk]; exact Fmt.val_decomp b32 b32_p s m h1 (by rw [Fmt.two_pow_p b32 b32_p]; omega)
  obtain ⟨j, hj⟩ := Fmt.exists_val b64 b64_p (s + 925) m (by
    have : 2 * 2 ^ (b32.p - 1) ≤ 2 ^ b64.p := by decide
    omega)
  exact ⟨j, by rw [hj, hv, Nat.pow_add, ← Nat.mul_assoc]⟩

theorem b32_val_inf : b32.val b32.inf = 2 ^ 277 := by decide +kernel
theorem b64_val_inf : b64.val b64.inf = 2 ^ 2098 := by decide +kernel

/-- Every value of `f` is exactly representable in `g`. -/
def Widens (f g : Fmt) : Prop :=
  ∀ k, k < f.inf → ∃ j, j < g.inf ∧ g.val j * 2 ^ f.u = f.val k * 2 ^ g.u

theorem widen_round {f g : Fmt} (hg : 1 ≤ g.p) (hw : Widens f g) {k : Nat} (hk : k < f.inf) :
    g.round (f.val k) (2 ^ f.u) < g.inf ∧
      g.val (g.round (f.val k) (2 ^ f.u)) * 2 ^ f.u = f.val k * 2 ^ g.u := by
  obtain ⟨j, hj, hv⟩ := hw k hk
  have : g.round (f.val k) (2 ^ f.u) = j :=
    Fmt.round_val g hg (Nat.pow_pos (by decide)) (Nat.le_of_lt hj) hv.symm
  rw [this]
  exact ⟨hj, hv⟩

/-- Widening and narrowing back is the identity. -/
theorem cast_cast {f g : Fmt} (hf : 1 ≤ f.p) (hg : 1 ≤ g.p) (hw : Widens f g) (x : Flt f) :
    Flt.cast f (Flt.cast g x) = x := by
  cases x with
  | nan => rfl
  | num s k h =>
    by_cases hk : k = f.inf
    · subst hk
      simp [Flt.cast, Flt.infinity]
    · obtain ⟨h1, h2⟩ := widen_round hg hw (show k < f.inf by omega)
      have hne : g.round (f.val k) (2 ^ f.u) ≠ g.inf := by omega
      have hr : f.round (g.val (g.round (f.val k) (2 ^ f.u))) (2 ^ g.u) = k :=
        Fmt.round_val f hf (Nat.pow_pos (by decide)) h h2
      simp [Flt.cast, hk, Flt.ofFrac, hne, hr]

theorem widens_32_64 : Widens b32 b64 := by
  intro k hk
  obtain ⟨j, hj⟩ := widen_exact k
  refine ⟨j, ?_, ?_⟩
  · apply (Fmt.val_lt_iff b64 b64_p).1
    rw [hj, b64_val_inf]
    have h1 := Fmt.val_strictMono b32 b32_p hk
    rw [b32_val_inf] at h1
    have h2 : b32.val k * 2 ^ 925 < 2 ^ 277 * 2 ^ 925 :=
      Nat.mul_lt_mul_of_pos_right h1 (Nat.pow_pos (by decide))
    have h3 : 2 ^ (277 + 925) ≤ 2 ^ 2098 := Nat.pow_le_pow_right (by decide) (by decide)
    rw [Nat.pow_add] at h3
    exact Nat.lt_of_lt_of_le h2 h3
  · have e : 2 ^ 925 * 2 ^ b32.u = 2 ^ b64.u := by decide +kernel
    rw [hj, Nat.mul_assoc, e]

/-- Widening to `f64` and narrowing back is the identity on `f32`. -/
theorem to32_to64 (x : F32) : F64.to32 (F32.to64 x) = x :=
  cast_cast b32_p b64_p widens_32_64 x

end Fl
