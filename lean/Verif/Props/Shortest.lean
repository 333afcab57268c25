import Verif.Lemmas.Usual
/-!
# C98: how numbers are written
-/
open Fl Fl.Text
namespace GP
open Spec
variable {f : Fmt}

/-- **C98.** A float that is neither zero nor infinite is written as the usual text of the shortest decimal that is
read as this float, with its sign: this text and no other. -/
theorem C98_shortest (hp : 2 ≤ f.p) (hp' : 2 ^ f.p < 10 ^ 16) (neg : Bool) (k : Nat) (hk : k ≤ f.inf) (h0 : k ≠ 0) (hi : k ≠ f.inf)
    (s : Str) : showFloat (.num neg k hk : Flt f) = s ↔ ∃ w, UsualText s neg w ∧ Shortest f k w := by
  obtain ⟨w, hu, hs⟩ := showMag_usual hp hp' h0 (show k < f.inf by omega)
  constructor
  · rintro rfl
    refine ⟨w, ⟨showMag f k, ?_, hu⟩, hs⟩
    unfold showFloat
    cases neg <;> simp
  · rintro ⟨w', ⟨body, hb, hu'⟩, hs'⟩
    obtain rfl := shortest_unique (usual_nonneg hu) (usual_nonneg hu') hs hs'
    obtain rfl := usual_unique hu hu'
    unfold showFloat
    rcases hb with ⟨rfl, rfl⟩ | ⟨rfl, rfl⟩ <;> simp

/-- Single and double precision. -/
theorem C98_shortest32 (neg : Bool) (k : Nat) (hk : k ≤ b32.inf) (h0 : k ≠ 0) (hi : k ≠ b32.inf) (s : Str) :
    showFloat (.num neg k hk : F32) = s ↔ ∃ w, UsualText s neg w ∧ Shortest b32 k w :=
  C98_shortest b32_p2 (by decide) neg k hk h0 hi s

/-! ## Texts that are kept -/

theorem reads_ge (hp : 1 ≤ f.p) {k j : Nat} (hj : j ≤ f.inf) {w : ℚ} (h : ReadsAs f k w) (hw : magnitude f j ≤ w) : j ≤ k := by
  apply Nat.le_of_not_lt
  intro hlt
  have hm := magnitude_lt hp hlt
  have := h.near j hj
  rw [abs_of_nonneg (by linarith), abs_of_nonneg (by linarith)] at this
  linarith

theorem reads_le (hp : 1 ≤ f.p) {k j : Nat} (hj : j ≤ f.inf) {w : ℚ} (h : ReadsAs f k w) (hw : w ≤ magnitude f j) : k ≤ j := by
  apply Nat.le_of_not_lt
  intro hlt
  have hm := magnitude_lt hp hlt
  have := h.near j hj
  rw [abs_of_nonpos (by linarith), abs_of_nonpos (by linarith)] at this
  linarith

/-- Two numbers of `n` digits are at least `10^-n` of the larger one apart. -/
theorem digits_apart {n : Nat} (hn : 1 ≤ n) {w w' : ℚ} (h : HasDigits n w) (h' : HasDigits n w') (hlt : w < w') : w' ≤ (w' - w) * 10 ^ n := by
  obtain ⟨m', x', hm', rfl⟩ := h'
  obtain ⟨m, x, hm, rfl⟩ := h
  -- on a common grid the larger one has at most `n` digits, or one more than the smaller ones
  have hx' : (0 : ℚ) < 10 ^ x' := zpow_pos (by norm_num) _
  have hx : (0 : ℚ) < 10 ^ x := zpow_pos (by norm_num) _
  have hmq : (m : ℚ) < 10 ^ n := by exact_mod_cast hm
  have hmq' : (m' : ℚ) < 10 ^ n := by exact_mod_cast hm'
  rcases le_total x' x with hle | hle
  · -- whole multiples of 10^x'
    obtain ⟨t, rfl⟩ : ∃ t : Nat, x = x' + t := ⟨(x - x').toNat, by omega⟩
    rw [zpow_add₀ (by norm_num), zpow_natCast] at hlt ⊢
    have e : (m : ℚ) * (10 ^ x' * 10 ^ t) = ((m * 10 ^ t : Nat) : ℚ) * 10 ^ x' := by push_cast; ring
    rw [e] at hlt ⊢
    have h1 : ((m * 10 ^ t : Nat) : ℚ) < m' := lt_of_mul_lt_mul_right hlt hx'.le
    have h2 : m * 10 ^ t + 1 ≤ m' := by exact_mod_cast h1
    have h3 : ((m * 10 ^ t : Nat) : ℚ) + 1 ≤ m' := by exact_mod_cast h2
    have h4 : (10 : ℚ) ^ x' ≤ (m' : ℚ) * 10 ^ x' - ((m * 10 ^ t : Nat) : ℚ) * 10 ^ x' := by nlinarith
    calc (m' : ℚ) * 10 ^ x' ≤ 10 ^ n * 10 ^ x' := mul_le_mul_of_nonneg_right hmq'.le hx'.le
      _ = 10 ^ x' * 10 ^ n := by ring
      _ ≤ _ := mul_le_mul_of_nonneg_right h4 (by positivity)
  · obtain ⟨t, rfl⟩ : ∃ t : Nat, x' = x + t := ⟨(x' - x).toNat, by omega⟩
    rw [zpow_add₀ (by norm_num), zpow_natCast] at hlt ⊢
    have e : (m' : ℚ) * (10 ^ x * 10 ^ t) = ((m' * 10 ^ t : Nat) : ℚ) * 10 ^ x := by push_cast; ring
    rw [e] at hlt ⊢
    generalize m' * 10 ^ t = M at *
    have h1 : (m : ℚ) < M := lt_of_mul_lt_mul_right hlt hx.le
    have h2 : m + 1 ≤ M := by exact_mod_cast h1
    have h3 : (m : ℚ) + 1 ≤ M := by exact_mod_cast h2
    have hP : (1 : ℚ) ≤ 10 ^ n := one_le_pow₀ (by norm_num)
    have : (M : ℚ) ≤ (M - m) * 10 ^ n := by
      rcases le_or_gt (M : ℚ) (10 ^ n) with h | h
      · nlinarith
      · have hnn : (10 : ℚ) ≤ 10 ^ n := by
          calc (10 : ℚ) = 10 ^ 1 := by norm_num
            _ ≤ 10 ^ n := pow_le_pow_right₀ (by norm_num) hn
        -- `m ≤ 10^n - 1`, so `(M - m) 10^n - M` grows with `M`
        have hm1 : (m : ℚ) ≤ 10 ^ n - 1 := by
          have : m + 1 ≤ 10 ^ n := hm
          have : (m : ℚ) + 1 ≤ 10 ^ n := by exact_mod_cast this
          linarith
        nlinarith
    calc (M : ℚ) * 10 ^ x ≤ (M - m) * 10 ^ n * 10 ^ x := mul_le_mul_of_nonneg_right this hx.le
      _ = _ := by ring

theorem gap_rel (hp : 1 ≤ f.p) {k : Nat} (hk : 2 ^ (f.p - 1) ≤ k + 1) :
    (magnitude f (k + 1) - magnitude f k) * 2 ^ (f.p - 1) ≤ magnitude f (k + 1) ∧
    (2 ^ (f.p - 1) ≤ k → (magnitude f (k + 1) - magnitude f k) * 2 ^ (f.p - 1) ≤ magnitude f k) := by
  have hpp := Fmt.two_pow_p f hp
  have hu : (0 : ℚ) < 2 ^ f.u := by positivity
  have hle := (Fmt.val_strictMono f hp (Nat.lt_succ_self k)).le
  have nat : (f.val (k + 1) - f.val k) * 2 ^ (f.p - 1) ≤ f.val (k + 1) ∧
      (2 ^ (f.p - 1) ≤ k → (f.val (k + 1) - f.val k) * 2 ^ (f.p - 1) ≤ f.val k) := by
    obtain ⟨s, m, rfl, h1, h2⟩ := Fmt.decomp f k
    have e1 := Fmt.val_decomp f hp s m h1 (by omega)
    have e2 := Fmt.val_decomp f hp s (m + 1) (h1.imp (fun h => by omega) id) (by omega)
    rw [Nat.add_assoc, e1, e2, Nat.add_mul, Nat.one_mul, Nat.add_sub_cancel_left, Nat.mul_comm (2 ^ s)]
    rcases h1 with h | rfl
    · have := Nat.mul_le_mul_right (2 ^ s) h
      exact ⟨Nat.le_trans this (Nat.le_add_right _ _), fun _ => this⟩
    · simp only [Nat.zero_mul, Nat.zero_add, Nat.pow_zero, Nat.mul_one] at *
      exact ⟨hk, fun h => h⟩
  obtain ⟨h1, h2⟩ := nat
  unfold magnitude
  rw [← sub_div, div_mul_eq_mul_div, ← Nat.cast_sub hle]
  refine ⟨(div_le_div_iff_of_pos_right hu).2 (by exact_mod_cast h1), fun h => (div_le_div_iff_of_pos_right hu).2 (by exact_mod_cast h2 h)⟩

/-- Two numbers of so few digits are not read as the same normal float. -/
theorem digits_distinct (hp : 1 ≤ f.p) {k n : Nat} (hn : 1 ≤ n) (h10 : 2 * 10 ^ n < 2 ^ (f.p - 1)) (hk : 2 ^ (f.p - 1) ≤ k) (hi : k < f.inf)
    {w w' : ℚ} (h : HasDigits n w) (h' : HasDigits n w') (hr : ReadsAs f k w) (hr' : ReadsAs f k w') : w = w' := by
  have key : ∀ {w w' : ℚ}, HasDigits n w → HasDigits n w' → ReadsAs f k w → ReadsAs f k w' → ¬ w < w' := by
    intro w w' h h' hr hr' hlt
    obtain ⟨j, rfl⟩ : ∃ j, k = j + 1 := ⟨k - 1, by have := Nat.pow_pos (n := f.p - 1) (show 0 < 2 by decide); omega⟩
    have g1 := (gap_rel (f := f) hp (k := j + 1) (by omega)).2 hk
    have g2 := (gap_rel (f := f) hp (k := j) hk).1
    have m1 := magnitude_lt hp (show j < j + 1 by omega) (f := f)
    have m2 := magnitude_lt hp (show j + 1 < j + 1 + 1 by omega) (f := f)
    have m0 : 0 ≤ magnitude f j := by unfold magnitude; positivity
    -- where they lie
    have l1 : magnitude f (j + 1) + magnitude f j ≤ 2 * w := by
      have := hr.near j (by omega)
      rcases abs_cases (w - magnitude f (j + 1)) with ⟨e1, _⟩ | ⟨e1, _⟩ <;> rcases abs_cases (w - magnitude f j) with ⟨e2, _⟩ | ⟨e2, _⟩ <;>
        rw [e1, e2] at this <;> linarith
    have l2 : 2 * w' ≤ magnitude f (j + 1) + magnitude f (j + 1 + 1) := by
      have := hr'.near (j + 1 + 1) (by omega)
      rcases abs_cases (w' - magnitude f (j + 1)) with ⟨e1, _⟩ | ⟨e1, _⟩ <;> rcases abs_cases (w' - magnitude f (j + 1 + 1)) with ⟨e2, _⟩ | ⟨e2, _⟩ <;>
        rw [e1, e2] at this <;> linarith
    have ap := digits_apart hn h h' hlt
    have h10q : (2 : ℚ) * 10 ^ n < 2 ^ (f.p - 1) := by exact_mod_cast h10
    generalize (2 : ℚ) ^ (f.p - 1) = P at *
    have hT : (0 : ℚ) < 10 ^ n := by positivity
    generalize (10 : ℚ) ^ n = T at *
    have hd : (w' - w) * P ≤ magnitude f (j + 1) := by nlinarith
    have h3 : w' * P ≤ magnitude f (j + 1) * T := by
      calc w' * P ≤ (w' - w) * T * P := mul_le_mul_of_nonneg_right ap (by linarith)
        _ = (w' - w) * P * T := by ring
        _ ≤ _ := mul_le_mul_of_nonneg_right hd hT.le
    have h4 : magnitude f (j + 1) ≤ 2 * w' := by linarith
    have h5 : w' * P ≤ w' * (2 * T) := by nlinarith
    have hw : 0 < w' := by linarith
    have := le_of_mul_le_mul_left h5 hw
    linarith
  rcases lt_trichotomy w w' with hh | hh | hh
  · exact absurd hh (key h h' hr hr')
  · exact hh
  · exact absurd hh (key h' h hr' hr)

/-- A whole number below 2^24 is a float. -/
theorem magnitude_nat {n : Nat} (h : n ≤ 2 ^ 24) : ∃ k, k < b32.inf ∧ magnitude b32 k = n := by
  have hv := val_int32 (i := (n : Int)) (by simpa using h)
  obtain ⟨hf, hv⟩ := hv
  obtain ⟨j, hj, e, -⟩ := ofInt_nearest b32_p2 (n : Int)
  rw [e] at hf hv
  have : ¬ (n : Int) < 0 := by omega
  refine ⟨j, by simpa [Flt.isFinite] using hf, ?_⟩
  unfold Flt.toRat Flt.sval at hv
  simp only [this, decide_false] at hv
  unfold magnitude
  simpa using hv

/-- A whole number is written with all its digits. -/
theorem shortest_nat {n k : Nat} {w : ℚ} (hn : 0 < n) (h : n < 2 ^ 24) (hk : magnitude b32 k = n) (hw : Shortest b32 k w) : w = n := by
  by_contra hne
  have hv : 0 < b32.val k := by
    apply Nat.pos_of_ne_zero
    intro h0
    unfold magnitude at hk
    rw [h0] at hk
    simp only [Nat.cast_zero, zero_div] at hk
    have : n = 0 := by exact_mod_cast hk.symm
    omega
  have hself : ReadsAs b32 k n := by rw [← hk]; exact reads_self (by decide) k
  -- it has fewer digits
  obtain ⟨D, hD, hD'⟩ : ∃ D, HasDigits D w ∧ ¬ HasDigits D (n : ℚ) := by
    by_contra hc
    have hl : NoLonger (n : ℚ) w := fun D hD => by
      by_contra h'
      exact hc ⟨D, hD, h'⟩
    have := hw.near n (by positivity) hself hl
    rw [hk, sub_self, abs_zero] at this
    have := abs_eq_zero.1 (le_antisymm this (abs_nonneg _))
    exact hne (by linarith)
  have hDn : 10 ^ D ≤ n := by
    apply Nat.le_of_not_lt
    intro hlt
    exact hD' ⟨n, 0, hlt, by simp⟩
  obtain ⟨m, x, hm, hwm⟩ := hD
  have side : w ≤ n - 1 ∨ (n : ℚ) + 1 ≤ w := by
    rcases lt_or_ge x 0 with hx | hx
    · left
      have h1 : (10 : ℚ) ^ x ≤ 10 ^ (-1 : Int) := zpow_le_zpow_right₀ (by norm_num) (by omega)
      have h2 : m + 1 ≤ n := by omega
      have h2' : (m : ℚ) + 1 ≤ n := by exact_mod_cast h2
      have h3 : (10 : ℚ) ^ (-1 : Int) = 1 / 10 := by norm_num
      have h4 : w ≤ m * (1 / 10) := by
        rw [hwm, ← h3]
        exact mul_le_mul_of_nonneg_left h1 (by positivity)
      have : (0 : ℚ) ≤ m := by positivity
      linarith
    · obtain ⟨t, rfl⟩ : ∃ t : Nat, x = t := ⟨x.toNat, by omega⟩
      rw [zpow_natCast] at hwm
      have e : w = ((m * 10 ^ t : Nat) : ℚ) := by rw [hwm]; push_cast; rfl
      generalize m * 10 ^ t = M at *
      rw [e] at hne ⊢
      have hne' : M ≠ n := by exact_mod_cast hne
      rcases Nat.lt_or_gt_of_ne hne' with hh | hh
      · left
        have : M + 1 ≤ n := hh
        have : (M : ℚ) + 1 ≤ n := by exact_mod_cast this
        linarith
      · right
        have : n + 1 ≤ M := hh
        exact_mod_cast this
  rcases side with hs | hs
  · obtain ⟨j, hj, ej⟩ := magnitude_nat (n := n - 1) (by omega)
    have ej' : magnitude b32 j = n - 1 := by rw [ej]; push_cast [Nat.cast_sub (show 1 ≤ n from hn)]; ring
    have := hw.reads.near j hj.le
    rw [hk, ej', abs_of_nonpos (by linarith), abs_of_nonpos (by linarith)] at this
    linarith
  · obtain ⟨j, hj, ej⟩ := magnitude_nat (n := n + 1) (by omega)
    have ej' : magnitude b32 j = n + 1 := by rw [ej]; push_cast; rfl
    have := hw.reads.near j hj.le
    rw [hk, ej', abs_of_nonneg (by linarith), abs_of_nonneg (by linarith)] at this
    linarith

theorem usual_zero {s : Str} (h : Usual s 0) : s = ['0'] := by
  have h0 : Usual ['0'] 0 := ⟨['0'], [], 0, by simp, fun _ => rfl, by simp, by simp, by
    rw [List.append_nil, numeral_iff (by decide)]
    decide, by simp⟩
  exact usual_unique h h0

/-- **C98.** The text of a number that can be kept is read as a float whose text is the same, letter for letter. -/
theorem C98_float {s : Str} {x : F32} (h : Keepable s) (hx : FloatText b32 s x) : showFloat x = s := by
  obtain ⟨neg, w, ⟨body, hb, hu⟩, hw⟩ := h
  obtain ⟨d, fl, -, -, ew, hm⟩ := usual_eq hu
  have hp : PlainNumber s neg d fl := ⟨body, hb, hm⟩
  have e := Option.some.inj ((floatText_plain hp).symm.trans ((C79_float b32_p2 s x).2 hx))
  have hle := b32.round_le d (10 ^ fl)
  have hr : ReadsAs b32 (b32.round d (10 ^ fl)) w := by
    have := (readsAs_iff (f := b32) d (10 ^ fl) _ (Nat.pow_pos (by decide)) hle).2 (round_nearest b32 b32_p2 _ _ (Nat.pow_pos (by decide)))
    rw [ew]
    push_cast at this
    exact this
  have hs : s = if neg then '-' :: body else body := by
    rcases hb with ⟨rfl, rfl⟩ | ⟨rfl, rfl⟩ <;> rfl
  suffices hsm : showMag b32 (b32.round d (10 ^ fl)) = body by
    rw [← e, hs]
    simp only [showFloat, hsm]
  clear e
  have m0 : magnitude b32 0 = 0 := by unfold magnitude; rw [Fmt.val_zero]; simp
  generalize b32.round d (10 ^ fl) = k at *
  rcases hw with ⟨rfl, -⟩ | hw
  · -- zero
    have : k ≤ 0 := reads_le (by decide) (Nat.zero_le _) hr (by rw [m0])
    obtain rfl : k = 0 := by omega
    rw [usual_zero hu, showMag, if_neg (by decide), if_pos rfl]
  · have main : k ≠ 0 ∧ k < b32.inf ∧ ∀ w', 0 ≤ w' → Shortest b32 k w' → w' = w := by
      rcases hw with ⟨n, hn, hn', rfl⟩ | ⟨hd, hlo, hhi⟩
      · obtain ⟨j, hj, ej⟩ := magnitude_nat (n := n) (by omega)
        have h1 := reads_ge (by decide) hj.le hr (by rw [ej])
        have h2 := reads_le (by decide) hj.le hr (by rw [ej])
        obtain rfl : k = j := by omega
        refine ⟨?_, hj, fun w' _ hs' => shortest_nat hn hn' ej hs'⟩
        rintro rfl
        rw [m0] at ej
        have : n = 0 := by exact_mod_cast ej.symm
        omega
      · have e1 : magnitude b32 (2 ^ 23) = 1 / 2 ^ 126 := by
          have : b32.val (2 ^ 23) = 2 ^ 23 := by decide +kernel
          unfold magnitude
          rw [this]
          have : b32.u = 149 := rfl
          rw [this]; norm_num
        have e2 : magnitude b32 (254 * 2 ^ 23) = 2 ^ 127 := by
          have : b32.val (254 * 2 ^ 23) = 2 ^ 276 := by decide +kernel
          unfold magnitude
          rw [this]
          have : b32.u = 149 := rfl
          rw [Nat.cast_pow, Nat.cast_ofNat, this, show 276 = 127 + 149 from rfl, pow_add, mul_div_assoc, div_self (by positivity), mul_one]
        have h1 := reads_ge (by decide) (by decide) hr (le_of_eq_of_le e1 hlo)
        have h2 := reads_le (by decide) (by decide) hr (le_of_le_of_eq hhi e2.symm)
        have h3 : 254 * 2 ^ 23 < b32.inf := by decide
        refine ⟨by omega, by omega, fun w' _ hs' => ?_⟩
        exact digits_distinct (f := b32) (by decide) (n := 6) (by decide) (by decide) h1 (by omega) (hs'.short w (usual_nonneg hu) hr 6 hd) hd hs'.reads hr
    obtain ⟨w', hu', hs'⟩ := showMag_usual b32_p2 (by decide) main.1 main.2.1
    rw [main.2.2 w' (usual_nonneg hu') hs'] at hu'
    exact usual_unique hu' hu

example : Keepable "-12.5".toList := by
  refine ⟨true, 25 / 2, ⟨"12.5".toList, Or.inl ⟨rfl, rfl⟩, "12".toList, "5".toList, 125, by decide, by decide, by decide, rfl, (numeral_iff (by decide) _ _).2 (by decide +kernel), by norm_num [show "5".toList.length = 1 from rfl]⟩,
    Or.inr (Or.inr ⟨⟨125, -1, by norm_num, by norm_num⟩, by norm_num, by norm_num⟩)⟩

example : ∃ x : F32, FloatText b32 "-12.5".toList x ∧ showFloat x = "-12.5".toList := by
  exact ⟨_, (C79_float b32_p2 "-12.5".toList _).1 (by decide +kernel : _ = some (Flt.ofFrac b32 true 25 2)), by decide +kernel⟩

/-- **C98.** The same for numbers that may be integers, and for the floats that they are turned into. -/
theorem C98_number {s : Str} {x : IOF} (h : Keepable s) (hx : NumberText s x) : x.text = s ∧ showFloat x.toF32 = s := by
  rcases hx with ⟨i, hi, rfl, ht⟩ | ⟨-, y, rfl, hy⟩
  · obtain ⟨neg, w, ⟨body, hb, hu⟩, hw⟩ := id h
    obtain ⟨d, fl, ed, -, ew, hm⟩ := usual_eq hu
    obtain ⟨rfl, ei⟩ := plain_of_int ⟨body, hb, hm⟩ ht
    have ed' : body = toDigits 10 d := by rw [ed]; simp [showDec]
    have hd : neg = true → 0 < d := by
      rintro rfl
      apply Nat.pos_of_ne_zero
      rintro rfl
      rw [Nat.cast_zero, zero_div] at ew
      rcases hw with ⟨-, h⟩ | ⟨n, h, -, h'⟩ | ⟨-, h, -⟩
      · cases h
      · rw [ew] at h'
        have : n = 0 := by exact_mod_cast h'.symm
        omega
      · rw [ew] at h
        norm_num at h
    have hneg : decide (i < 0) = neg ∧ i.natAbs = d := by
      rw [ei]
      cases neg
      · simp
      · have := hd rfl
        simp; omega
    constructor
    · unfold IOF.text showInt
      simp only []
      rcases hb with ⟨rfl, rfl⟩ | ⟨rfl, rfl⟩
      · rw [if_pos (by simpa using hneg.1), hneg.2, ed']
      · rw [if_neg (by simpa using hneg.1), ed', ← hneg.2]
    · obtain ⟨j, hj, e, hn⟩ := ofInt_nearest b32_p2 i
      refine C98_float h ((C79_float b32_p2 s _).1 ?_)
      rw [floatText_plain ⟨body, hb, hm⟩, show IOF.toF32 (.int i hi) = Flt.ofInt b32 i from rfl, e]
      rw [nearest_iff b32 b32_p2 (by decide), hneg.2] at hn
      simp only [hneg.1, Nat.pow_zero, hn]
  · exact ⟨C98_float h hy, C98_float h hy⟩

end GP
