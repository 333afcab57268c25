import Verif.Float.Shortest
import Verif.Lemmas.Format
/-! The usual text of a number, for C98. -/
open Fl Fl.Text
namespace GP
open Spec
variable {f : Fmt}

theorem digit_char {c : Char} (h : isDigit 10 c = true) : digitVal c < 10 ∧ c = digitChar (digitVal c) := by
  unfold isDigit at h
  simp only [decide_eq_true_eq] at h
  refine ⟨h, ?_⟩
  unfold digitVal at h ⊢
  unfold digitChar
  simp only [] at h ⊢
  by_cases h1 : 48 ≤ c.toNat ∧ c.toNat ≤ 57
  · rw [if_pos h1, if_pos (by omega), show 48 + (c.toNat - 48) = c.toNat by omega, Char.ofNat_toNat]
  · rw [if_neg h1] at h
    split at h
    · omega
    · split at h <;> omega

/-- Digits of the same number and length are the same. -/
theorem digits_inj {s t : Str} (hs : s.all (isDigit 10) = true) (ht : t.all (isDigit 10) = true) (hl : s.length = t.length)
    (h : ofDigits 10 s = ofDigits 10 t) : s = t := by
  induction s using List.reverseRecOn generalizing t with
  | nil => exact (List.length_eq_zero_iff.1 hl.symm).symm
  | append_singleton s c ih =>
    rcases List.eq_nil_or_concat' t with rfl | ⟨t, d, rfl⟩
    · simp at hl
    · rw [List.all_append, Bool.and_eq_true, List.all_cons, Bool.and_eq_true] at hs ht
      obtain ⟨hs, hc, -⟩ := hs
      obtain ⟨ht, hd, -⟩ := ht
      rw [ofDigits_append_single, ofDigits_append_single] at h
      have c1 := digit_char hc
      have d1 := digit_char hd
      have e1 : ofDigits 10 s = ofDigits 10 t := by omega
      have e2 : digitVal c = digitVal d := by omega
      rw [ih hs ht (by simpa using hl) e1, c1.2, d1.2, e2]

theorem ofDigits_lt {s : Str} (hs : s.all (isDigit 10) = true) : ofDigits 10 s < 10 ^ s.length := by
  induction s using List.reverseRecOn with
  | nil => simp [ofDigits]
  | append_singleton s c ih =>
    rw [List.all_append, Bool.and_eq_true, List.all_cons, Bool.and_eq_true] at hs
    have := (digit_char hs.2.1).1
    have := ih hs.1
    rw [ofDigits_append_single, List.length_append, List.length_singleton, Nat.pow_succ]
    omega

theorem ofDigits_pos {c : Char} {s : Str} (hc : isDigit 10 c = true) (h0 : c ≠ '0') : 0 < ofDigits 10 (c :: s) := by
  have h := ofDigits_append 10 [c] s
  rw [List.singleton_append] at h
  rw [h]
  have e : ofDigits 10 [c] = digitVal c := by simp [ofDigits]
  rw [e]
  have hp : 0 < digitVal c := by
    apply Nat.pos_of_ne_zero
    intro h
    have := (digit_char hc).2
    rw [h] at this
    exact h0 this
  have := Nat.mul_pos hp (Nat.pow_pos (n := s.length) (show 0 < 10 by decide))
  omega

/-- Digits without a zero too many in front. -/
theorem digits_canonical {s : Str} (hs : s.all (isDigit 10) = true) (hn : s ≠ []) (h0 : s.head? = some '0' → s = ['0']) :
    s = toDigits 10 (ofDigits 10 s) := by
  induction s using List.reverseRecOn with
  | nil => exact absurd rfl hn
  | append_singleton s c ih =>
    have hall := hs
    rw [List.all_append, Bool.and_eq_true, List.all_cons, Bool.and_eq_true] at hs
    obtain ⟨c1, c2⟩ := digit_char hs.2.1
    rw [ofDigits_append_single]
    cases s with
    | nil =>
      have e : ofDigits 10 [] = 0 := rfl
      rw [e, Nat.zero_mul, Nat.zero_add, toDigits_small c1, ← c2]
      rfl
    | cons d s =>
      have hd : d ≠ '0' := by
        rintro rfl
        have := h0 rfl
        simp at this
      rw [List.all_cons, Bool.and_eq_true] at hs
      have hpos := ofDigits_pos (s := s) hs.1.1 hd
      have := ih (by rw [List.all_cons, Bool.and_eq_true]; exact hs.1) (by simp) (fun h => absurd (Option.some.inj h) hd)
      rw [toDigits_big (by decide) (by omega), show (ofDigits 10 (d :: s) * 10 + digitVal c) / 10 = ofDigits 10 (d :: s) by omega,
        show (ofDigits 10 (d :: s) * 10 + digitVal c) % 10 = digitVal c by omega, ← this, ← c2]

theorem digits_padded {s : Str} (hs : s.all (isDigit 10) = true) (hn : s ≠ []) : s = padZero s.length (toDigits 10 (ofDigits 10 s)) := by
  have hl : (toDigits 10 (ofDigits 10 s)).length ≤ s.length :=
    toDigits_length_le _ (List.length_pos_iff.2 hn) _ (ofDigits_lt hs)
  refine digits_inj hs (all_padZero _ (toDigits_all (by decide) (by decide) _)) (padZero_length hl).symm ?_
  rw [ofDigits_padZero, ofDigits_toDigits (by decide) (by decide)]

/-- The usual text is the one that is printed. -/
theorem usual_eq {s : Str} {w : ℚ} (h : Usual s w) : ∃ d x, s = showDec d 0 x ∧ (x = 0 ∨ d % 10 ≠ 0) ∧ w = (d : ℚ) / 10 ^ x ∧ Mantissa s d x := by
  obtain ⟨a, b, m, ha, h0, hb, rfl, hn, rfl⟩ := h
  obtain ⟨n1, n2, n3⟩ := numeral_digits.1 hn
  rw [List.all_append, Bool.and_eq_true] at n2
  rw [ofDigits_append] at n3
  have hlt := ofDigits_lt n2.2
  refine ⟨m, b.length, ?_, ?_, rfl, a, b, ?_, hn, rfl⟩
  · unfold showDec
    by_cases hbn : b = []
    · subst hbn
      simp only [List.length_nil, pow_zero, Nat.mul_one, if_true]
      have : ofDigits 10 [] = 0 := rfl
      rw [n3, this, List.length_nil, Nat.pow_zero, Nat.mul_one, Nat.add_zero]
      exact digits_canonical n2.1 ha h0
    · rw [if_neg hbn, if_neg (by simpa using hbn)]
      have hd : m / 10 ^ b.length = ofDigits 10 a := by
        rw [n3, Nat.mul_comm, Nat.mul_add_div (Nat.pow_pos (by decide)), Nat.div_eq_of_lt hlt, Nat.add_zero]
      have hm : m % 10 ^ b.length = ofDigits 10 b := by
        rw [n3, Nat.mul_comm, Nat.mul_add_mod, Nat.mod_eq_of_lt hlt]
      rw [hd, hm, ← digits_canonical n2.1 ha h0, ← digits_padded n2.2 hbn]
  · by_cases hbn : b = []
    · exact Or.inl (by rw [hbn]; rfl)
    · right
      obtain ⟨t, c, rfl⟩ := (List.eq_nil_or_concat' b).resolve_left hbn
      have hc : isDigit 10 c = true := by
        have := n2.2
        rw [List.all_append, Bool.and_eq_true, List.all_cons, Bool.and_eq_true] at this
        exact this.2.1
      obtain ⟨c1, c2⟩ := digit_char hc
      have : digitVal c ≠ 0 := by
        intro h
        rw [h] at c2
        apply hb
        rw [c2, List.getLast?_append]
        rfl
      rw [n3, ofDigits_append_single, List.length_append, List.length_singleton, Nat.pow_succ, ← Nat.mul_assoc]
      omega
  · by_cases hbn : b = []
    · rw [if_pos hbn]; exact Or.inr ⟨rfl, hbn⟩
    · rw [if_neg hbn]; exact Or.inl rfl

/-- There is one usual text of a number. -/
theorem usual_unique {s t : Str} {w : ℚ} (h : Usual s w) (h' : Usual t w) : s = t := by
  obtain ⟨d, x, rfl, h1, e1, -⟩ := usual_eq h
  obtain ⟨d', x', rfl, h2, e2, -⟩ := usual_eq h'
  have hx : (0 : ℚ) < 10 ^ x := by positivity
  have hx' : (0 : ℚ) < 10 ^ x' := by positivity
  rw [e1, div_eq_div_iff hx.ne' hx'.ne'] at e2
  have e : d * 10 ^ x' = d' * 10 ^ x := by exact_mod_cast e2
  have key : ∀ {d d' x x' : Nat}, d * 10 ^ x' = d' * 10 ^ x → (x' = 0 ∨ d' % 10 ≠ 0) → x' ≤ x := by
    intro d d' x x' e h
    apply Nat.le_of_not_lt
    intro hlt
    obtain ⟨t, rfl⟩ : ∃ t, x' = x + (t + 1) := ⟨x' - x - 1, by omega⟩
    rw [Nat.pow_add, ← Nat.mul_assoc, Nat.mul_right_comm] at e
    have := Nat.eq_of_mul_eq_mul_right (Nat.pow_pos (by decide)) e
    rw [Nat.pow_succ, ← Nat.mul_assoc] at this
    omega
  obtain rfl : x = x' := Nat.le_antisymm (key e.symm h1) (key e h2)
  rw [Nat.eq_of_mul_eq_mul_right (Nat.pow_pos (by decide)) e]

theorem toDigits_last (n : Nat) : (toDigits 10 n).getLast? = some (digitChar (n % 10)) := by
  by_cases h : n < 10
  · rw [toDigits_small h, Nat.mod_eq_of_lt h]; rfl
  · rw [toDigits_big (by decide) (by omega), List.getLast?_append]; rfl

theorem digitChar_zero {n : Nat} (h : n < 10) (e : digitChar n = '0') : n = 0 := by
  have := digitVal_digitChar n (by omega)
  rw [e] at this
  rw [← this]; rfl

theorem toDigits_lead (n : Nat) (h : (toDigits 10 n).head? = some '0') : toDigits 10 n = ['0'] := by
  rcases Nat.eq_zero_or_pos n with rfl | hn
  · exact toDigits_small (by decide)
  · obtain ⟨c, r, e, hc⟩ := toDigits_head (b := 10) (by decide) (by decide) n hn
    rw [e] at h
    exact absurd (Option.some.inj h) hc

/-- What is printed is usual. -/
theorem showDec_usual (d xp xn : Nat) (h : xn = 0 ∨ xp = 0 ∧ d % 10 ≠ 0) : Usual (showDec d xp xn) (tripVal (d, xp, xn)) := by
  unfold tripVal showDec
  simp only []
  by_cases hx : xn = 0
  · subst hx
    rw [if_pos rfl]
    refine ⟨toDigits 10 (d * 10 ^ xp), [], d * 10 ^ xp, toDigits_ne_nil _ _, toDigits_lead _, by simp, by simp, ?_, ?_⟩
    · rw [List.append_nil, numeral_iff (by decide)]
      exact parseNat_toDigits (by decide) (by decide) _
    · push_cast; simp
  · obtain ⟨rfl, h10⟩ := h.resolve_left hx
    rw [if_neg hx]
    have hlen : (toDigits 10 (d % 10 ^ xn)).length ≤ xn :=
      toDigits_length_le xn (by omega) _ (Nat.mod_lt _ (Nat.pow_pos (by decide)))
    have hne : padZero xn (toDigits 10 (d % 10 ^ xn)) ≠ [] := by
      intro h
      have := padZero_length hlen
      rw [h] at this
      exact hx this.symm
    refine ⟨toDigits 10 (d / 10 ^ xn), padZero xn (toDigits 10 (d % 10 ^ xn)), d, toDigits_ne_nil _ _, toDigits_lead _, ?_, by rw [if_neg hne], ?_, ?_⟩
    · unfold padZero
      rw [List.getLast?_append, toDigits_last]
      intro e
      have hm : d % 10 ^ xn % 10 = d % 10 := Nat.mod_mod_of_dvd _ (Dvd.dvd.pow (Nat.dvd_refl 10) hx)
      rw [hm] at e
      exact h10 (digitChar_zero (Nat.mod_lt _ (by decide)) (Option.some.inj e))
    · rw [numeral_digits]
      refine ⟨by simp [toDigits_ne_nil], ?_, ?_⟩
      · rw [List.all_append, toDigits_all (by decide) (by decide), all_padZero _ (toDigits_all (by decide) (by decide) _)]; rfl
      · rw [ofDigits_append, padZero_length hlen, ofDigits_padZero, ofDigits_toDigits (by decide) (by decide),
          ofDigits_toDigits (by decide) (by decide)]
        exact (Nat.div_add_mod' d (10 ^ xn)).symm
    · rw [padZero_length hlen]; simp

theorem strip_last (x : Nat) : ∀ d, (strip d x).2 = 0 ∨ (strip d x).1 % 10 ≠ 0 := by
  induction x with
  | zero => intro d; exact Or.inl rfl
  | succ x ih =>
    intro d
    unfold strip
    split
    · exact ih _
    · next h => exact Or.inr h

theorem cand_last (v n : Nat) (far : Bool) : (cand f v n far).2.2 = 0 ∨ (cand f v n far).2.1 = 0 ∧ (cand f v n far).1 % 10 ≠ 0 := by
  unfold cand
  simp only []
  split
  · exact Or.inl rfl
  · exact (strip_last _ _).imp id fun h => ⟨rfl, h⟩

/-- The text of a magnitude. -/
theorem showMag_usual (hp : 2 ≤ f.p) (hp' : 2 ^ f.p < 10 ^ 16) {k : Nat} (h0 : k ≠ 0) (hk : k < f.inf) :
    ∃ w, Usual (showMag f k) w ∧ Shortest f k w := by
  have hv : 0 < f.val k := Fmt.val_pos f (by omega) (by omega)
  refine ⟨_, ?_, search_shortest hp hp' hv hk.le⟩
  unfold showMag
  rw [if_neg (by omega), if_neg h0]
  simp only []
  refine showDec_usual _ _ _ ?_
  rcases search_ends (f := f) k 17 1 with ⟨n, far, -, -, e, -⟩ | hnone
  · rw [e]; exact cand_last _ _ _
  · exact absurd ((decOrd_reads hp _ _ _ k hk.le).2 (cand_enough hp hv (by decide) hp')) (hnone 17 false (by omega) (by omega))

theorem usual_nonneg {s : Str} {w : ℚ} (h : Usual s w) : 0 ≤ w := by
  obtain ⟨a, b, m, -, -, -, -, -, rfl⟩ := h
  positivity

end GP
