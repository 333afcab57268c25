import Verif.Spec.Shortest
import Verif.Props.Decimal
import Mathlib.Tactic.Ring
/-! The search for the shortest decimal finds it. -/
open Fl Fl.Text
namespace GP
open Spec
variable {f : Fmt}

theorem magnitude_lt (hp : 1 ≤ f.p) {j k : Nat} (h : j < k) : magnitude f j < magnitude f k := by
  unfold magnitude
  have : (f.val j : ℚ) < f.val k := by exact_mod_cast Fmt.val_strictMono f hp h
  exact div_lt_div_of_pos_right this (by positivity)

theorem readsAs_iff (n d k : Nat) (hd : 0 < d) (hk : k ≤ f.inf) : ReadsAs f k ((n : ℚ) / d) ↔ Nearest f n d k := by
  have hd' : (0 : ℚ) < d := by exact_mod_cast hd
  have key : ∀ j, |(n : ℚ) / d - magnitude f j| = (away f n d j : ℚ) / (d * 2 ^ f.u) := by
    intro j
    have e : (n : ℚ) / d - magnitude f j = ((n * 2 ^ f.u : ℚ) - f.val j * d) / (d * 2 ^ f.u) := by
      unfold magnitude
      field_simp
    rw [e, abs_div, abs_of_pos (by positivity : (0 : ℚ) < d * 2 ^ f.u)]
    congr 1
    unfold away
    rcases Nat.le_total (f.val j * d) (n * 2 ^ f.u) with h | h
    · have h' : (f.val j * d : ℚ) ≤ n * 2 ^ f.u := by exact_mod_cast h
      rw [abs_of_nonneg (by linarith), Nat.sub_eq_zero_of_le h, Nat.zero_add, Nat.cast_sub h]
      push_cast; rfl
    · have h' : (n * 2 ^ f.u : ℚ) ≤ f.val j * d := by exact_mod_cast h
      rw [abs_of_nonpos (by linarith), Nat.sub_eq_zero_of_le h, Nat.add_zero, Nat.cast_sub h]
      push_cast; ring
  have hc : (0 : ℚ) < d * 2 ^ f.u := by positivity
  constructor
  · intro h
    refine ⟨hk, fun j hj => ?_, fun j hj hne heq => ?_⟩
    · have := h.near j hj
      rw [key, key, div_le_div_iff_of_pos_right hc] at this
      exact_mod_cast this
    · refine h.even j hj hne ?_
      rw [key, key, heq]
  · intro h
    refine ⟨fun j hj => ?_, fun j hj hne heq => ?_⟩
    · rw [key, key, div_le_div_iff_of_pos_right hc]
      exact_mod_cast h.near j hj
    · refine h.even j hj hne ?_
      rw [key, key, div_left_inj' (ne_of_gt hc)] at heq
      exact_mod_cast heq.symm

/-- What lies between two numbers read as a float is read as this one. -/
theorem readsAs_between (hp : 1 ≤ f.p) {k : Nat} {x y z : ℚ} (hx : ReadsAs f k x) (hz : ReadsAs f k z) (h1 : x ≤ y)
    (h2 : y ≤ z) : ReadsAs f k y := by
  have le_iff : ∀ {a b c : ℚ}, a < b → (|c - a| ≤ |c - b| ↔ 2 * c ≤ a + b) := by
    intro a b c hab
    rcases abs_cases (c - a) with ⟨e1, _⟩ | ⟨e1, _⟩ <;> rcases abs_cases (c - b) with ⟨e2, _⟩ | ⟨e2, _⟩ <;> rw [e1, e2] <;>
      constructor <;> intro h <;> linarith
  have ge_iff : ∀ {a b c : ℚ}, b < a → (|c - a| ≤ |c - b| ↔ a + b ≤ 2 * c) := by
    intro a b c hab
    rcases abs_cases (c - a) with ⟨e1, _⟩ | ⟨e1, _⟩ <;> rcases abs_cases (c - b) with ⟨e2, _⟩ | ⟨e2, _⟩ <;> rw [e1, e2] <;>
      constructor <;> intro h <;> linarith
  have near : ∀ j, j ≤ f.inf → |y - magnitude f k| ≤ |y - magnitude f j| := by
    intro j hj
    rcases Nat.lt_trichotomy j k with h | h | h
    · have hm := magnitude_lt hp h
      have := (ge_iff hm).1 (hx.near j hj)
      exact (ge_iff hm).2 (by linarith)
    · rw [h]
    · have hm := magnitude_lt hp h
      have := (le_iff hm).1 (hz.near j hj)
      exact (le_iff hm).2 (by linarith)
  refine ⟨near, fun j hj hne heq => ?_⟩
  rcases Nat.lt_or_gt_of_ne hne with h | h
  · -- as far from a smaller one: then it is `x`
    have hm := magnitude_lt hp h
    have a1 := (ge_iff hm).1 (hx.near j hj)
    have a2 := (le_iff hm).1 (le_of_eq heq.symm)
    have : y = x := by linarith
    subst this
    exact hx.even j hj hne heq
  · have hm := magnitude_lt hp h
    have a1 := (le_iff hm).1 (hz.near j hj)
    have a2 := (ge_iff hm).1 (le_of_eq heq.symm)
    have : y = z := by linarith
    subst this
    exact hz.even j hj hne heq

theorem decOrd_reads (hp : 2 ≤ f.p) (m xp xn k : Nat) (hk : k ≤ f.inf) :
    decOrd f m xp xn = k ↔ ReadsAs f k ((m : ℚ) * 10 ^ xp / 10 ^ xn) := by
  have h := readsAs_iff (f := f) (m * 10 ^ xp) (10 ^ xn) k (Nat.pow_pos (by decide)) hk
  push_cast at h
  rw [h, nearest_iff f hp (Nat.pow_pos (by decide))]
  rfl

theorem log10_spec (n : Nat) (hn : 1 ≤ n) : 10 ^ log10 n ≤ n ∧ n < 10 ^ (log10 n + 1) := by
  unfold log10
  induction n using Nat.strongRecOn with
  | _ n ih =>
    by_cases h : n < 10
    · rw [toDigits_small h]
      simp only [List.length_singleton]
      omega
    · rw [toDigits_big (by decide) (by omega), List.length_append, List.length_singleton, Nat.add_sub_cancel]
      obtain ⟨h1, h2⟩ := ih (n / 10) (by omega) (by omega)
      have hpos : 1 ≤ (toDigits 10 (n / 10)).length := List.length_pos_iff.2 (toDigits_ne_nil _ _)
      generalize (toDigits 10 (n / 10)).length = l at *
      obtain ⟨l, rfl⟩ : ∃ j, l = j + 1 := ⟨l - 1, by omega⟩
      rw [Nat.add_sub_cancel] at h1 h2
      rw [Nat.pow_succ 10 (l + 1), Nat.pow_succ 10 l] at *
      omega

/-- The decimal exponent of a magnitude. -/
theorem dexp_spec (k : Nat) (hk : 0 < f.val k) :
    (10 : ℚ) ^ ((dexp f (f.val k) : Int) - f.u) ≤ magnitude f k ∧ magnitude f k < (10 : ℚ) ^ ((dexp f (f.val k) : Int) - f.u + 1) := by
  generalize hv : f.val k = v at *
  have hle : 1 ≤ v * 10 ^ f.u / 2 ^ f.u := by
    rw [Nat.le_div_iff_mul_le (Nat.pow_pos (by decide)), Nat.one_mul]
    calc 2 ^ f.u ≤ 10 ^ f.u := Nat.pow_le_pow_left (by decide) _
      _ ≤ v * 10 ^ f.u := Nat.le_mul_of_pos_left _ hk
  obtain ⟨h1, h2⟩ := log10_spec _ hle
  change 10 ^ dexp f v ≤ _ at h1
  change _ < 10 ^ (dexp f v + 1) at h2
  generalize dexp f v = e at *
  rw [Nat.le_div_iff_mul_le (Nat.pow_pos (by decide))] at h1
  rw [Nat.div_lt_iff_lt_mul (Nat.pow_pos (by decide))] at h2
  have h1' : (10 : ℚ) ^ e * 2 ^ f.u ≤ v * 10 ^ f.u := by exact_mod_cast h1
  have h2' : (v : ℚ) * 10 ^ f.u < 10 ^ (e + 1) * 2 ^ f.u := by exact_mod_cast h2
  unfold magnitude
  rw [hv]
  rw [show (e : Int) - f.u + 1 = ((e + 1 : Nat) : Int) - (f.u : Int) by push_cast; ring, zpow_sub₀ (by norm_num), zpow_sub₀ (by norm_num)]
  simp only [zpow_natCast]
  constructor
  · rw [div_le_div_iff₀ (by positivity) (by positivity)]
    exact h1'
  · rw [div_lt_div_iff₀ (by positivity) (by positivity)]
    exact h2'

theorem pick_spec (a b : Nat) (hb : 0 < b) :
    (2 * (a % b) < b → pick false a b = a / b ∧ pick true a b = a / b + 1) ∧
    (b ≤ 2 * (a % b) → pick false a b = a / b + 1 ∧ pick true a b = a / b) := by
  have hd := Nat.div_add_mod a b
  have hm := Nat.mod_lt a hb
  have key : ∀ q, rhu a b = q ↔ 2 * b * q ≤ 2 * a + b ∧ 2 * a + b < 2 * b * (q + 1) := by
    intro q
    unfold rhu
    rw [Nat.div_eq_iff (by omega)]
    have : q * (2 * b) = 2 * b * q := Nat.mul_comm _ _
    have e : 2 * b * (q + 1) = 2 * b * q + 2 * b := by ring
    rw [e]
    omega
  unfold pick
  generalize a / b = q at *
  generalize a % b = r at *
  have e : 2 * b * q = 2 * (b * q) := by ring
  have e1 : 2 * b * (q + 1) = 2 * (b * q) + 2 * b := by ring
  have e2 : 2 * b * (q + 1 + 1) = 2 * (b * q) + 4 * b := by ring
  constructor
  · intro h
    have : rhu a b = q := (key q).2 ⟨by omega, by omega⟩
    rw [this]; simp; omega
  · intro h
    have : rhu a b = q + 1 := (key (q + 1)).2 ⟨by omega, by omega⟩
    rw [this]; simp; omega

/-- The value of a triple. -/
def tripVal (c : Nat × Nat × Nat) : ℚ := (c.1 : ℚ) * 10 ^ c.2.1 / 10 ^ c.2.2

/-- The candidates with `n` digits are the two multiples of a power of ten around the float. -/
theorem cand_spec (k n : Nat) (hk : 0 < f.val k) (hn : 1 ≤ n) :
    ∃ q : Nat, ∃ G : ℚ, G = (10 : ℚ) ^ ((dexp f (f.val k) : Int) - f.u - (n - 1 : Nat)) ∧
      q * G ≤ magnitude f k ∧ magnitude f k < (q + 1) * G ∧ 10 ^ (n - 1) ≤ q ∧ q < 10 ^ n ∧
      ((magnitude f k - q * G < (q + 1) * G - magnitude f k ∧ tripVal (cand f (f.val k) n false) = q * G ∧
          tripVal (cand f (f.val k) n true) = (q + 1) * G) ∨
       ((q + 1) * G - magnitude f k ≤ magnitude f k - q * G ∧ tripVal (cand f (f.val k) n false) = (q + 1) * G ∧
          tripVal (cand f (f.val k) n true) = q * G)) := by
  obtain ⟨d1, d2⟩ := dexp_spec (f := f) k hk
  -- a common form of the two cases
  obtain ⟨a, b, hb, hG, hval, hcand⟩ : ∃ a b : Nat, 0 < b ∧ magnitude f k = (a : ℚ) / b * (10 : ℚ) ^ ((dexp f (f.val k) : Int) - f.u - (n - 1 : Nat)) ∧
      0 < (10 : ℚ) ^ ((dexp f (f.val k) : Int) - f.u - (n - 1 : Nat)) ∧
      ∀ far, tripVal (cand f (f.val k) n far) = (pick far a b : ℚ) * (10 : ℚ) ^ ((dexp f (f.val k) : Int) - f.u - (n - 1 : Nat)) := by
    by_cases h : f.u + (n - 1) ≤ dexp f (f.val k)
    · have hz : (10 : ℚ) ^ ((dexp f (f.val k) : Int) - f.u - (n - 1 : Nat)) = 10 ^ (dexp f (f.val k) - (f.u + (n - 1))) := by
        rw [← zpow_natCast]
        congr 1
        omega
      rw [hz]
      refine ⟨f.val k, 2 ^ f.u * 10 ^ (dexp f (f.val k) - (f.u + (n - 1))), Nat.mul_pos (Nat.pow_pos (by decide)) (Nat.pow_pos (by decide)), ?_, by positivity, ?_⟩
      · unfold magnitude
        push_cast
        field_simp
      · intro far
        unfold cand tripVal
        simp only [if_pos h]
        simp
    · have hz : (10 : ℚ) ^ ((dexp f (f.val k) : Int) - f.u - (n - 1 : Nat)) = 1 / 10 ^ (f.u + (n - 1) - dexp f (f.val k)) := by
        rw [← zpow_natCast, one_div, ← zpow_neg]
        congr 1
        omega
      rw [hz]
      refine ⟨f.val k * 10 ^ (f.u + (n - 1) - dexp f (f.val k)), 2 ^ f.u, Nat.pow_pos (by decide), ?_, by positivity, ?_⟩
      · unfold magnitude
        push_cast
        field_simp
      · intro far
        unfold cand tripVal
        simp only [if_neg h]
        generalize f.u + (n - 1) - dexp f (f.val k) = xn
        generalize pick far (f.val k * 10 ^ xn) (2 ^ f.u) = d
        obtain ⟨s1, s2⟩ := strip_spec xn d
        generalize strip d xn = s at *
        obtain ⟨s, t⟩ := s
        simp only [pow_zero, mul_one] at *
        have : (10 : ℚ) ^ xn = 10 ^ (xn - t) * 10 ^ t := by rw [← pow_add]; congr 1; omega
        rw [← s2, this]
        push_cast
        field_simp
  obtain ⟨p1, p2⟩ := pick_spec a b hb
  have hdm := Nat.div_add_mod a b
  have hm := Nat.mod_lt a hb
  generalize hGdef : (10 : ℚ) ^ ((dexp f (f.val k) : Int) - f.u - (n - 1 : Nat)) = G at *
  have hbq : (0 : ℚ) < b := by exact_mod_cast hb
  have hV : magnitude f k = ((a / b : Nat) : ℚ) * G + (a % b : Nat) / b * G := by
    rw [hG]
    have : (a : ℚ) = b * ((a / b : Nat) : ℚ) + (a % b : Nat) := by exact_mod_cast hdm.symm
    rw [show (a : ℚ) / b = (b * ((a / b : Nat) : ℚ) + (a % b : Nat)) / b by rw [← this]]
    field_simp
  generalize a / b = q at *
  generalize a % b = r at *
  have hr0 : (0 : ℚ) ≤ (r : ℚ) / b * G := by positivity
  have hr1 : (r : ℚ) / b * G < G := by
    have : (r : ℚ) / b < 1 := by rw [div_lt_one hbq]; exact_mod_cast hm
    nlinarith
  refine ⟨q, G, rfl, by linarith, by linarith, ?_, ?_, ?_⟩
  · -- at least n digits
    have h1 : (10 : ℚ) ^ ((dexp f (f.val k) : Int) - f.u) = 10 ^ (n - 1) * G := by
      rw [← hGdef, ← zpow_natCast, ← zpow_add₀ (by norm_num)]
      congr 1
      omega
    have : (10 : ℚ) ^ (n - 1) * G < (q + 1) * G := by rw [← h1]; linarith
    have := lt_of_mul_lt_mul_right this hval.le
    have : 10 ^ (n - 1) < q + 1 := by exact_mod_cast this
    omega
  · have h1 : (10 : ℚ) ^ ((dexp f (f.val k) : Int) - f.u + 1) = 10 ^ n * G := by
      rw [← hGdef, ← zpow_natCast, ← zpow_add₀ (by norm_num)]
      congr 1
      omega
    have : (q : ℚ) * G < 10 ^ n * G := by rw [← h1]; linarith
    have := lt_of_mul_lt_mul_right this hval.le
    exact_mod_cast this
  · rcases Nat.lt_or_ge (2 * r) b with h | h
    · obtain ⟨e1, e2⟩ := p1 h
      refine Or.inl ⟨?_, by rw [hcand, e1], by rw [hcand, e2]; push_cast; rfl⟩
      have : 2 * ((r : ℚ) / b) < 1 := by
        rw [mul_div_assoc', div_lt_one hbq]; exact_mod_cast h
      nlinarith
    · obtain ⟨e1, e2⟩ := p2 h
      refine Or.inr ⟨?_, by rw [hcand, e1]; push_cast; rfl, by rw [hcand, e2]⟩
      have : 1 ≤ 2 * ((r : ℚ) / b) := by
        rw [mul_div_assoc', le_div_iff₀ hbq]; rw [one_mul]; exact_mod_cast h
      nlinarith

/-- How the search ends. -/
theorem search_ends (k : Nat) : ∀ fuel n,
    (∃ n' far, n ≤ n' ∧ n' < n + fuel ∧ search f k fuel n = cand f (f.val k) n' far ∧
      (∀ j far, n ≤ j → j < n' → decOrd f (cand f (f.val k) j far).1 (cand f (f.val k) j far).2.1 (cand f (f.val k) j far).2.2 ≠ k) ∧
      (far = true → decOrd f (cand f (f.val k) n' false).1 (cand f (f.val k) n' false).2.1 (cand f (f.val k) n' false).2.2 ≠ k)) ∨
    ∀ j far, n ≤ j → j < n + fuel → decOrd f (cand f (f.val k) j far).1 (cand f (f.val k) j far).2.1 (cand f (f.val k) j far).2.2 ≠ k := by
  intro fuel
  induction fuel with
  | zero => intro n; exact Or.inr fun j far h1 h2 => absurd h2 (by omega)
  | succ fuel ih =>
    intro n
    unfold search
    simp only []
    split
    · next h => exact Or.inl ⟨n, false, by omega, by omega, rfl, fun j _ h1 h2 => absurd h2 (by omega), nofun⟩
    · next h =>
      split
      · next h' => exact Or.inl ⟨n, true, by omega, by omega, rfl, fun j _ h1 h2 => absurd h2 (by omega), fun _ => h⟩
      · next h' =>
        have first : ∀ far, decOrd f (cand f (f.val k) n far).1 (cand f (f.val k) n far).2.1 (cand f (f.val k) n far).2.2 ≠ k := by
          intro far; cases far <;> assumption
        rcases ih (n + 1) with ⟨n', far, h1, h2, h3, h4, h5⟩ | h1
        · refine Or.inl ⟨n', far, by omega, by omega, h3, fun j far' j1 j2 => ?_, h5⟩
          rcases Nat.eq_or_lt_of_le j1 with rfl | j1
          · exact first far'
          · exact h4 j far' j1 j2
        · refine Or.inr fun j far j1 j2 => ?_
          rcases Nat.eq_or_lt_of_le j1 with rfl | j1
          · exact first far
          · exact h1 j far j1 (by omega)


/-! ## Few digits -/

theorem digits_mono {n m : Nat} {y : ℚ} (h : HasDigits n y) (hnm : n ≤ m) : HasDigits m y := by
  obtain ⟨d, x, hd, e⟩ := h
  exact ⟨d, x, Nat.lt_of_lt_of_le hd (Nat.pow_le_pow_right (by decide) hnm), e⟩

/-- A number of at most `n` digits is not strictly between two successive ones. -/
theorem digits_grid {n q : Nat} {E : Int} {y : ℚ} (hn : 1 ≤ n) (hq : 10 ^ (n - 1) ≤ q) (hy : HasDigits n y) :
    y ≤ q * (10 : ℚ) ^ E ∨ (q + 1) * (10 : ℚ) ^ E ≤ y := by
  obtain ⟨m, x, hm, rfl⟩ := hy
  have hE : (0 : ℚ) < 10 ^ E := zpow_pos (by norm_num) _
  rcases lt_or_ge x E with h | h
  · left
    have h1 : (10 : ℚ) ^ x ≤ 10 ^ (E - 1) := zpow_le_zpow_right₀ (by norm_num) (by omega)
    have h2 : (m : ℚ) ≤ 10 ^ n := by exact_mod_cast hm.le
    have h3 : (10 : ℚ) ^ n * 10 ^ (E - 1) = 10 ^ (n - 1) * 10 ^ E := by
      rw [← zpow_natCast, ← zpow_natCast, ← zpow_add₀ (by norm_num), ← zpow_add₀ (by norm_num)]
      congr 1
      omega
    have h4 : (10 : ℚ) ^ (n - 1) ≤ q := by exact_mod_cast hq
    calc (m : ℚ) * 10 ^ x ≤ 10 ^ n * 10 ^ (E - 1) := mul_le_mul h2 h1 (zpow_pos (by norm_num) _).le (by positivity)
      _ = 10 ^ (n - 1) * 10 ^ E := h3
      _ ≤ q * 10 ^ E := mul_le_mul_of_nonneg_right h4 hE.le
  · obtain ⟨t, rfl⟩ : ∃ t : Nat, x = E + t := ⟨(x - E).toNat, by omega⟩
    rw [zpow_add₀ (by norm_num), zpow_natCast]
    have e : (m : ℚ) * (10 ^ E * 10 ^ t) = ((m * 10 ^ t : Nat) : ℚ) * 10 ^ E := by push_cast; ring
    rw [e]
    generalize m * 10 ^ t = M
    rcases Nat.lt_or_ge q M with h | h
    · right
      have : (q + 1 : ℚ) ≤ M := by exact_mod_cast h
      exact mul_le_mul_of_nonneg_right this hE.le
    · left
      have : (M : ℚ) ≤ q := by exact_mod_cast h
      exact mul_le_mul_of_nonneg_right this hE.le

theorem reads_self (hp : 1 ≤ f.p) (k : Nat) : ReadsAs f k (magnitude f k) := by
  refine ⟨fun j _ => by simp, fun j _ hne heq => ?_⟩
  rw [sub_self, abs_zero] at heq
  have := abs_eq_zero.1 heq.symm
  rcases Nat.lt_or_gt_of_ne hne with h | h <;> have := magnitude_lt hp h <;> linarith

/-- If a number of `n` digits is read as the float, one of the two candidates is. -/
theorem cand_reads (hp : 2 ≤ f.p) {k n : Nat} (hk : 0 < f.val k) (hn : 1 ≤ n) {y : ℚ} (hy : ReadsAs f k y)
    (hd : HasDigits n y) : ∃ far, ReadsAs f k (tripVal (cand f (f.val k) n far)) := by
  obtain ⟨q, G, hG, h1, h2, h3, -, h4⟩ := cand_spec (f := f) k n hk hn
  have hself := reads_self (f := f) (by omega) k
  rcases digits_grid (E := (dexp f (f.val k) : Int) - f.u - (n - 1 : Nat)) hn h3 hd with h | h <;> rw [← hG] at h
  · have := readsAs_between (by omega) hy hself h h1
    rcases h4 with ⟨-, e1, e2⟩ | ⟨-, e1, e2⟩
    · exact ⟨false, by rw [e1]; exact this⟩
    · exact ⟨true, by rw [e2]; exact this⟩
  · have := readsAs_between (by omega) hself hy h2.le h
    rcases h4 with ⟨-, e1, e2⟩ | ⟨-, e1, e2⟩
    · exact ⟨true, by rw [e2]; exact this⟩
    · exact ⟨false, by rw [e1]; exact this⟩

/-- The gaps beside a float are not smaller than `2^-p` of it. -/
theorem gap_ge (hp : 1 ≤ f.p) (k : Nat) :
    f.val k ≤ (f.val (k + 1) - f.val k) * 2 ^ f.p ∧ f.val (k + 1) ≤ (f.val (k + 1) - f.val k) * 2 ^ f.p := by
  have hpp := Fmt.two_pow_p f hp
  obtain ⟨s, m, rfl, h1, h2⟩ := Fmt.decomp f k
  have e1 := Fmt.val_decomp f hp s m h1 (by omega)
  have e2 := Fmt.val_decomp f hp s (m + 1) (h1.imp (fun h => by omega) id) (by omega)
  rw [Nat.add_assoc, e1, e2, Nat.add_mul, Nat.one_mul, Nat.add_sub_cancel_left]
  rw [show m * 2 ^ s + 2 ^ s = (m + 1) * 2 ^ s by ring, Nat.mul_comm (2 ^ s)]
  exact ⟨Nat.mul_le_mul_right _ (by omega), Nat.mul_le_mul_right _ (by omega)⟩

/-- What is nearer than `2^-(p+1)` of the float is read as the float. -/
theorem reads_close (hp : 1 ≤ f.p) {k : Nat} {y : ℚ} (h : 2 * |y - magnitude f k| * 2 ^ f.p < magnitude f k) : ReadsAs f k y := by
  have hP : (0 : ℚ) < 2 ^ f.p := by positivity
  have hu : (0 : ℚ) < 2 ^ f.u := by positivity
  have step : ∀ j, magnitude f j ≤ (magnitude f (j + 1) - magnitude f j) * 2 ^ f.p ∧
      magnitude f (j + 1) ≤ (magnitude f (j + 1) - magnitude f j) * 2 ^ f.p := by
    intro j
    obtain ⟨h1, h2⟩ := gap_ge (f := f) hp j
    have hle := (Fmt.val_strictMono f hp (Nat.lt_succ_self j)).le
    have h1' : (f.val j : ℚ) ≤ (f.val (j + 1) - f.val j) * 2 ^ f.p := by
      rw [← Nat.cast_sub hle]; exact_mod_cast h1
    have h2' : (f.val (j + 1) : ℚ) ≤ (f.val (j + 1) - f.val j) * 2 ^ f.p := by
      rw [← Nat.cast_sub hle]; exact_mod_cast h2
    unfold magnitude
    rw [← sub_div, div_mul_eq_mul_div]
    exact ⟨(div_le_div_iff_of_pos_right hu).2 h1', (div_le_div_iff_of_pos_right hu).2 h2'⟩
  have mono : ∀ {a b : Nat}, a ≤ b → magnitude f a ≤ magnitude f b := by
    intro a b hab
    rcases Nat.eq_or_lt_of_le hab with rfl | h
    · exact le_refl _
    · exact (magnitude_lt hp h).le
  have strict : ∀ j, j ≠ k → |y - magnitude f k| < |y - magnitude f j| := by
    intro j hne
    have tri : |magnitude f k - magnitude f j| ≤ |y - magnitude f k| + |y - magnitude f j| := by
      rw [abs_sub_comm y (magnitude f k)]
      have := abs_add_le (magnitude f k - y) (y - magnitude f j)
      rwa [show magnitude f k - y + (y - magnitude f j) = magnitude f k - magnitude f j by ring] at this
    have gap : magnitude f k ≤ |magnitude f k - magnitude f j| * 2 ^ f.p := by
      rcases Nat.lt_or_gt_of_ne hne with h | h
      · obtain ⟨i, rfl⟩ : ∃ i, k = i + 1 := ⟨k - 1, by omega⟩
        have := mono (show j ≤ i by omega)
        have h2 := (step i).2
        rw [abs_of_pos (by have := magnitude_lt hp h; linarith)]
        refine le_trans h2 (mul_le_mul_of_nonneg_right (by linarith) hP.le)
      · have := mono (show k + 1 ≤ j by omega)
        have h2 := (step k).1
        rw [abs_sub_comm, abs_of_pos (by have := magnitude_lt hp h; linarith)]
        refine le_trans h2 (mul_le_mul_of_nonneg_right (by linarith) hP.le)
    have : 2 * |y - magnitude f k| * 2 ^ f.p < (|y - magnitude f k| + |y - magnitude f j|) * 2 ^ f.p :=
      lt_of_lt_of_le h (le_trans gap (mul_le_mul_of_nonneg_right tri hP.le))
    have := lt_of_mul_lt_mul_right this hP.le
    linarith
  refine ⟨fun j _ => ?_, fun j _ hne heq => absurd heq (ne_of_lt (strict j hne))⟩
  by_cases hj : j = k
  · rw [hj]
  · exact (strict j hj).le

theorem magnitude_pos {k : Nat} (hk : 0 < f.val k) : 0 < magnitude f k := by
  unfold magnitude
  have : (0 : ℚ) < f.val k := by exact_mod_cast hk
  positivity

/-- With so many digits the search succeeds. -/
theorem cand_enough (hp : 2 ≤ f.p) {k n : Nat} (hk : 0 < f.val k) (hn : 1 ≤ n) (h : 2 ^ f.p < 10 ^ (n - 1)) :
    ReadsAs f k (tripVal (cand f (f.val k) n false)) := by
  obtain ⟨q, G, hG, h1, h2, h3, -, h4⟩ := cand_spec (f := f) k n hk hn
  have hGpos : 0 < G := by rw [hG]; exact zpow_pos (by norm_num) _
  have hq : (10 : ℚ) ^ (n - 1) ≤ q := by exact_mod_cast h3
  have hpn : (2 : ℚ) ^ f.p < 10 ^ (n - 1) := by exact_mod_cast h
  have hclose : 2 * |tripVal (cand f (f.val k) n false) - magnitude f k| ≤ G := by
    rcases h4 with ⟨h, e, -⟩ | ⟨h, e, -⟩
    · rw [e, abs_of_nonpos (by linarith)]; linarith
    · rw [e, abs_of_pos (by linarith)]; linarith
  apply reads_close (by omega)
  have hP : (0 : ℚ) < 2 ^ f.p := by positivity
  calc 2 * |tripVal (cand f (f.val k) n false) - magnitude f k| * 2 ^ f.p ≤ G * 2 ^ f.p := mul_le_mul_of_nonneg_right hclose hP.le
    _ < G * 10 ^ (n - 1) := mul_lt_mul_of_pos_left hpn hGpos
    _ ≤ G * q := mul_le_mul_of_nonneg_left hq hGpos.le
    _ ≤ magnitude f k := by linarith

theorem not_reads_zero {k : Nat} (hk : 0 < f.val k) : ¬ ReadsAs f k 0 := by
  intro h
  have := h.near 0 (Nat.zero_le _)
  have h0 : magnitude f 0 = 0 := by unfold magnitude; rw [Fmt.val_zero]; simp
  rw [h0, sub_self, abs_zero, zero_sub, abs_neg] at this
  have h1 := magnitude_pos hk
  rw [abs_of_pos h1] at this
  linarith

/-- The result of the search is the shortest decimal. -/
theorem search_shortest (hp : 2 ≤ f.p) (hp' : 2 ^ f.p < 10 ^ 16) {k : Nat} (hk0 : 0 < f.val k) (hk : k ≤ f.inf) :
    Shortest f k (tripVal (search f k 17 1)) := by
  have reads : ∀ n far, decOrd f (cand f (f.val k) n far).1 (cand f (f.val k) n far).2.1 (cand f (f.val k) n far).2.2 = k ↔
      ReadsAs f k (tripVal (cand f (f.val k) n far)) := fun n far => decOrd_reads hp _ _ _ k hk
  have hw : ReadsAs f k (tripVal (search f k 17 1)) := (decOrd_reads hp _ _ _ k hk).1 (search_spec (by omega) hk 17 1)
  rcases search_ends (f := f) k 17 1 with ⟨n, far, n1, n2, e, hmin, hfar⟩ | hnone
  swap
  · exact absurd ((reads 17 false).2 (cand_enough hp hk0 (by decide) hp')) (hnone 17 false (by omega) (by omega))
  rw [e] at hw ⊢
  simp only [ne_eq, reads] at hmin hfar
  -- fewer digits do not do
  have least : ∀ m y, ReadsAs f k y → HasDigits m y → n ≤ m := by
    intro m y hy hd
    apply Nat.le_of_not_lt
    intro hlt
    rcases Nat.eq_zero_or_pos m with rfl | hm
    · obtain ⟨d, x, hd, rfl⟩ := hd
      obtain rfl : d = 0 := by simpa using hd
      simp only [Nat.cast_zero, zero_mul] at hy
      exact not_reads_zero hk0 hy
    · obtain ⟨far, h⟩ := cand_reads hp hk0 hm hy hd
      exact hmin m far hm hlt h
  obtain ⟨q, G, hG, h1, h2, h3, h3', h4⟩ := cand_spec (f := f) k n hk0 n1
  have hGpos : 0 < G := by rw [hG]; exact zpow_pos (by norm_num) _
  have dq : HasDigits n (q * G) := ⟨q, _, h3', by rw [hG]⟩
  have dq1 : HasDigits n ((q + 1) * G) := by
    rcases Nat.lt_or_ge (q + 1) (10 ^ n) with h | h
    · exact ⟨q + 1, _, h, by rw [hG]; push_cast; rfl⟩
    · have : q + 1 = 10 ^ n := by omega
      have hq : ((q : ℚ) + 1) = 10 ^ n := by exact_mod_cast this
      refine ⟨1, (n : Int) + ((dexp f (f.val k) : Int) - f.u - (n - 1 : Nat)), Nat.one_lt_pow (by omega) (by decide), ?_⟩
      rw [hq, zpow_add₀ (by norm_num), ← hG, zpow_natCast, Nat.cast_one, one_mul]
  have dw : HasDigits n (tripVal (cand f (f.val k) n far)) := by
    rcases h4 with ⟨-, e1, e2⟩ | ⟨-, e1, e2⟩ <;> cases far <;> simp only [e1, e2] <;> assumption
  have hself := reads_self (f := f) (by omega) k
  -- every other such number is beyond one of the two candidates
  have beyond : ∀ y, ReadsAs f k y → NoLonger y (tripVal (cand f (f.val k) n far)) →
      y ≤ q * G ∧ ReadsAs f k (q * G) ∨ (q + 1) * G ≤ y ∧ ReadsAs f k ((q + 1) * G) := by
    intro y hy hl
    rcases digits_grid (E := (dexp f (f.val k) : Int) - f.u - (n - 1 : Nat)) n1 h3 (hl n dw) with h | h <;> rw [← hG] at h
    · exact Or.inl ⟨h, readsAs_between (by omega) hy hself h h1⟩
    · exact Or.inr ⟨h, readsAs_between (by omega) hself hy h2.le h⟩
  refine ⟨hw, fun y _ hy m hd => digits_mono dw (least m y hy hd), fun y _ hy hl => ?_, fun y _ hy hl heq => ?_⟩
  · rcases beyond y hy hl with ⟨hb, hr⟩ | ⟨hb, hr⟩
    · rw [abs_of_nonpos (by linarith : y - magnitude f k ≤ 0)]
      rcases h4 with ⟨hh, e1, e2⟩ | ⟨hh, e1, e2⟩ <;> cases far
      · rw [e1, abs_of_nonpos (by linarith)]; linarith
      · exact absurd (by rw [e1]; exact hr) (hfar rfl)
      · rw [e1, abs_of_nonneg (by linarith)]; linarith
      · rw [e2, abs_of_nonpos (by linarith)]; linarith
    · rw [abs_of_nonneg (by linarith : 0 ≤ y - magnitude f k)]
      rcases h4 with ⟨hh, e1, e2⟩ | ⟨hh, e1, e2⟩ <;> cases far
      · rw [e1, abs_of_nonpos (by linarith)]; linarith
      · rw [e2, abs_of_nonneg (by linarith)]; linarith
      · rw [e1, abs_of_nonneg (by linarith)]; linarith
      · exact absurd (by rw [e1]; exact hr) (hfar rfl)
  · rcases beyond y hy hl with ⟨hb, hr⟩ | ⟨hb, hr⟩
    · rcases h4 with ⟨hh, e1, e2⟩ | ⟨hh, e1, e2⟩ <;> cases far
      · rw [e1]; exact hb
      · exact absurd (by rw [e1]; exact hr) (hfar rfl)
      · rw [e1]; linarith
      · rw [e2]; exact hb
    · rw [abs_of_nonneg (by linarith : 0 ≤ y - magnitude f k)] at heq
      rcases h4 with ⟨hh, e1, e2⟩ | ⟨hh, e1, e2⟩ <;> cases far
      · rw [e1, abs_of_nonpos (by linarith)] at heq; linarith
      · rw [e2, abs_of_nonneg (by linarith)] at heq; rw [e2]; linarith
      · rw [e1, abs_of_nonneg (by linarith)] at heq; rw [e1]; linarith
      · exact absurd (by rw [e1]; exact hr) (hfar rfl)

/-- There is only one shortest decimal. -/
theorem shortest_unique {k : Nat} {w w' : ℚ} (h0 : 0 ≤ w) (h0' : 0 ≤ w') (h : Shortest f k w) (h' : Shortest f k w') : w = w' := by
  have l1 := h.short w' h0' h'.reads
  have l2 := h'.short w h0 h.reads
  have e := le_antisymm (h.near w' h0' h'.reads l2) (h'.near w h0 h.reads l1)
  exact le_antisymm (h'.tie w h0 h.reads l1 e.symm) (h.tie w' h0' h'.reads l2 e)

end GP
