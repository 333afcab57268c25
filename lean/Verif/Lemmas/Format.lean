import Verif.Spec.Format
import Verif.Props.Read
/-! Numbers and colours of the format, for C88–C90. -/
open Fl Fl.Text
namespace GP
open Spec

theorem mantissa_digits (n : Nat) : Mantissa (toDigits 10 n) n 0 :=
  ⟨toDigits 10 n, [], Or.inr ⟨rfl, rfl⟩, by
    rw [List.append_nil, numeral_iff (by decide)]
    exact parseNat_toDigits (by decide) (by decide) n, rfl⟩

theorem showDec_plain (d xp xn : Nat) : ∃ m fl, Mantissa (showDec d xp xn) m fl := by
  unfold showDec
  split
  · exact ⟨_, _, mantissa_digits _⟩
  · refine ⟨ofDigits 10 (toDigits 10 (d / 10 ^ xn) ++ padZero xn (toDigits 10 (d % 10 ^ xn))), _, toDigits 10 (d / 10 ^ xn),
      padZero xn (toDigits 10 (d % 10 ^ xn)), Or.inl rfl, ?_, rfl⟩
    rw [numeral_iff (by decide)]
    unfold parseNat
    rw [List.all_append, toDigits_all (by decide) (by decide), all_padZero _ (toDigits_all (by decide) (by decide) _)]
    simp [toDigits_ne_nil]

theorem showMag_plain {k : Nat} (hk : k ≠ b32.inf) : ∃ m fl, Mantissa (showMag b32 k) m fl := by
  unfold showMag
  rw [if_neg hk]
  split
  · have := mantissa_digits 0
    rw [toDigits_small (by decide)] at this
    exact ⟨0, 0, this⟩
  · exact showDec_plain _ _ _

theorem floatText_plain {s : Str} {neg : Bool} {m fl : Nat} (h : PlainNumber s neg m fl) :
    parseFloat b32 s = some (.num neg (b32.round m (10 ^ fl)) (b32.round_le _ _)) := by
  obtain ⟨body, hs, hm⟩ := h
  refine (C79_float b32_p2 s _).2 ⟨neg, body, ?_, Or.inl ⟨m, -(fl : Int), _, b32.round_le _ _, ?_, rfl, ?_⟩⟩
  · rcases hs with ⟨h1, h2⟩ | ⟨h1, h2⟩
    · exact Or.inl ⟨h1, h2⟩
    · exact Or.inr (Or.inr ⟨h1, h2⟩)
  · exact ⟨body, [], fl, 0, by simp, hm, Or.inl ⟨rfl, rfl⟩, by simp⟩
  · have e1 : (-(fl : Int)).toNat = 0 := by omega
    have e2 : (-(-(fl : Int))).toNat = fl := by omega
    rw [e1, e2, Nat.pow_zero, Nat.mul_one]
    exact round_nearest b32 b32_p2 _ _ (Nat.pow_pos (by decide))

theorem representable_iff (s : Str) :
    Representable s ↔ ∃ neg m fl, PlainNumber s neg m fl ∧ b32.round m (10 ^ fl) ≠ b32.inf := by
  constructor
  · rintro ⟨neg, m, fl, k, hp, hn, hk⟩
    rw [nearest_iff b32 b32_p2 (Nat.pow_pos (by decide))] at hn
    exact ⟨neg, m, fl, hp, by rw [hn]; exact hk⟩
  · rintro ⟨neg, m, fl, hp, hk⟩
    exact ⟨neg, m, fl, _, hp, round_nearest b32 b32_p2 _ _ (Nat.pow_pos (by decide)), hk⟩

/-- The text of a magnitude and what it denotes. -/
theorem show_plain (neg : Bool) (k : Nat) (h : k ≤ b32.inf) (hk : k ≠ b32.inf) :
    ∃ m fl, PlainNumber (showFloat (.num neg k h : F32)) neg m fl ∧ b32.round m (10 ^ fl) = k := by
  obtain ⟨m, fl, hm⟩ := showMag_plain hk
  have hp : PlainNumber (showFloat (.num neg k h : F32)) neg m fl := by
    unfold showFloat
    cases neg
    · exact ⟨showMag b32 k, Or.inr ⟨by simp, rfl⟩, hm⟩
    · exact ⟨showMag b32 k, Or.inl ⟨by simp, rfl⟩, hm⟩
  refine ⟨m, fl, hp, ?_⟩
  have := Option.some.inj ((floatText_plain hp).symm.trans (parseFloat_showFloat b32_p _))
  exact (Flt.num.inj this).2

theorem representable_show {x : F32} (hx : IsFinite x) : Representable (showFloat x) := by
  obtain ⟨neg, k, h, rfl, hk⟩ := hx
  obtain ⟨m, fl, hp, hr⟩ := show_plain neg k h hk
  exact (representable_iff _).2 ⟨neg, m, fl, hp, by rw [hr]; exact hk⟩

theorem round_small {m : Nat} (hm : m < 2 ^ 64) : b32.round m 1 ≠ b32.inf := by
  intro h
  have hn := (nearest_iff b32 b32_p2 (n := m) (d := 1) (k := b32.inf) (by decide)).2 h
  have h1 := hn.near 0 (Nat.zero_le _)
  unfold away at h1
  rw [Fmt.val_zero] at h1
  have h2 : m * 2 ^ b32.u < 2 ^ 64 * 2 ^ b32.u := Nat.mul_lt_mul_of_pos_right hm (Nat.pow_pos (by decide))
  have h3 : 2 * (2 ^ 64 * 2 ^ b32.u) < b32.val b32.inf := by decide +kernel
  have key : ∀ M N Q : Nat, M < N → 2 * N < Q → ¬ (Q * 1 - M + (M - Q * 1) ≤ 0 * 1 - M + (M - 0 * 1)) := by omega
  exact key _ _ _ h2 h3 h1

theorem plain_int (i : Int) : PlainNumber (showInt i) (decide (i < 0)) i.natAbs 0 := by
  unfold showInt
  by_cases hi : i < 0
  · rw [if_pos hi]
    exact ⟨_, Or.inl ⟨rfl, by simpa using hi⟩, mantissa_digits _⟩
  · rw [if_neg hi]
    exact ⟨_, Or.inr ⟨rfl, by simpa using hi⟩, mantissa_digits _⟩

theorem representable_text {x : IOF} (hx : IsFiniteIof x) : Representable x.text := by
  rcases hx with ⟨i, h, rfl⟩ | ⟨f, rfl, hf⟩
  · refine (representable_iff _).2 ⟨_, _, 0, plain_int i, ?_⟩
    have := (IOF.i32ok_iff i).1 h
    exact round_small (by omega)
  · exact representable_show hf

theorem floatText_finite {s : Str} {x : F32} (hs : Representable s) (h : FloatText b32 s x) : IsFinite x := by
  obtain ⟨neg, m, fl, hp, hk⟩ := (representable_iff s).1 hs
  have := Option.some.inj ((floatText_plain hp).symm.trans ((C79_float b32_p2 s x).2 h))
  exact ⟨_, _, _, this.symm, hk⟩

theorem numberText_finite {s : Str} {x : IOF} (hs : Representable s) (h : NumberText s x) : IsFiniteIof x := by
  rcases h with ⟨i, h, rfl, -⟩ | ⟨-, f, rfl, hf⟩
  · exact Or.inl ⟨i, h, rfl⟩
  · exact Or.inr ⟨f, rfl, floatText_finite hs hf⟩

theorem toF32_finite {x : IOF} (hx : IsFiniteIof x) : IsFinite x.toF32 := by
  rcases hx with ⟨i, h, rfl⟩ | ⟨f, rfl, hf⟩
  · obtain ⟨j, hj, e, hn⟩ := ofInt_nearest b32_p2 i
    refine ⟨_, j, hj, e, ?_⟩
    rw [nearest_iff b32 b32_p2 (by decide)] at hn
    rw [← hn]
    have := (IOF.i32ok_iff i).1 h
    exact round_small (by omega)
  · exact hf

/-! ## Numbers from 0 to a bound -/

/-- A whole number that is a float. -/
structure Bound (n k : Nat) : Prop where
  lt : k < b32.inf
  val : b32.val k = n * 2 ^ b32.u
  text : UpTo n (showMag b32 k)

theorem bound_one : Bound 1 (127 * 2 ^ 23) := by
  refine ⟨by decide +kernel, by decide +kernel, false, 1, 0, ⟨toDigits 10 1, Or.inr ⟨by decide +kernel, rfl⟩, mantissa_digits 1⟩, nofun, by decide⟩

theorem bound_360 : Bound 360 (135 * 2 ^ 23 + 52 * 2 ^ 16) := by
  refine ⟨by decide +kernel, by decide +kernel, false, 360, 0, ⟨toDigits 10 360, Or.inr ⟨by decide +kernel, rfl⟩, mantissa_digits 360⟩, nofun, by decide⟩

theorem numeral_all {s : Str} {n : Nat} (h : Numeral 10 s n) : ∀ c ∈ s, isDigit 10 c = true := by
  rw [numeral_iff (by decide)] at h
  unfold parseNat at h
  split at h
  · next hs => exact List.all_eq_true.1 hs.2
  · cases h

theorem mantissa_numeral {s : Str} {m fl j : Nat} (hm : Mantissa s m fl) (hj : Numeral 10 s j) : m = j ∧ fl = 0 := by
  obtain ⟨a, b, hab, hn, rfl⟩ := hm
  rcases hab with rfl | ⟨rfl, rfl⟩
  · have := numeral_all hj '.' (by simp)
    exact absurd this (by decide)
  · rw [List.append_nil, numeral_iff (by decide)] at hn
    rw [numeral_iff (by decide)] at hj
    exact ⟨Option.some.inj (hn.symm.trans hj), rfl⟩

theorem mantissa_head {c : Char} {s : Str} {m fl : Nat} (hm : Mantissa (c :: s) m fl) : isDigit 10 c = true ∨ c = '.' := by
  obtain ⟨a, b, hab, hn, rfl⟩ := hm
  rcases hab with h | ⟨h, rfl⟩
  · cases a with
    | nil => exact Or.inr (List.cons.inj h).1
    | cons d a =>
      rw [(List.cons.inj h).1]
      exact Or.inl (numeral_all hn d (by simp))
  · subst h
    exact Or.inl (numeral_all hn c (by simp))

theorem plain_of_int {s : Str} {neg : Bool} {m fl : Nat} {i : Int} (hp : PlainNumber s neg m fl) (hi : IntText s i) :
    fl = 0 ∧ i = if neg then -(m : Int) else m := by
  obtain ⟨body, hs, hm⟩ := hp
  obtain ⟨neg', body', j, hs', hn, rfl⟩ := hi
  have bad : ∀ {c : Char} {t : Str} {j : Nat}, Numeral 10 (c :: t) j → isDigit 10 c = false → False := by
    intro c t j h hc
    have := numeral_all h c (by simp)
    rw [hc] at this
    cases this
  have bad' : ∀ {c : Char} {t : Str} {m fl : Nat}, Mantissa (c :: t) m fl → isDigit 10 c = false → c ≠ '.' → False := by
    intro c t m fl h hc hd
    rcases mantissa_head h with h | h
    · rw [hc] at h; cases h
    · exact hd h
  rcases hs with ⟨rfl, rfl⟩ | ⟨rfl, rfl⟩
  · rcases hs' with ⟨h, rfl⟩ | ⟨h, rfl⟩ | ⟨h, rfl⟩
    · cases h
      obtain ⟨rfl, rfl⟩ := mantissa_numeral hm hn
      exact ⟨rfl, rfl⟩
    · exact absurd (List.cons.inj h).1 (by decide)
    · subst h
      exact (bad hn (by decide)).elim
  · rcases hs' with ⟨h, rfl⟩ | ⟨h, rfl⟩ | ⟨h, rfl⟩
    · subst h
      exact (bad' hm (by decide) (by decide)).elim
    · subst h
      exact (bad' hm (by decide) (by decide)).elim
    · subst h
      obtain ⟨rfl, rfl⟩ := mantissa_numeral hm hn
      exact ⟨rfl, rfl⟩

theorem upTo_float {n k : Nat} (hb : Bound n k) {s : Str} {f : F32} (hs : UpTo n s) (hf : FloatText b32 s f) : Within n (.float f) := by
  obtain ⟨neg, m, fl, hp, h0, hm⟩ := hs
  refine Or.inr ?_
  have e := Option.some.inj ((floatText_plain hp).symm.trans ((C79_float b32_p2 s f).2 hf))
  refine ⟨neg, _, _, by rw [e], ?_, ?_⟩
  · intro hn
    rw [h0 hn]
    exact round_zero (by decide) _ (Nat.pow_pos (by decide))
  · have hn := round_nearest b32 b32_p2 m (10 ^ fl) (Nat.pow_pos (by decide))
    generalize b32.round m (10 ^ fl) = j at hn
    rcases Nat.lt_or_ge k j with hlt | hle
    · exfalso
      have h1 := hn.near k (Nat.le_of_lt hb.lt)
      have hv := Fmt.val_strictMono b32 (by decide) hlt
      have hD : 0 < 10 ^ fl := Nat.pow_pos (by decide)
      have hv' := Nat.mul_lt_mul_of_pos_right hv hD
      have hm' := Nat.mul_le_mul_right (2 ^ b32.u) hm
      rw [hb.val] at hv'
      unfold away at h1
      rw [hb.val] at h1
      have e2 : n * 10 ^ fl * 2 ^ b32.u = n * 2 ^ b32.u * 10 ^ fl := Nat.mul_right_comm _ _ _
      rw [e2] at hm'
      omega
    · rcases Nat.eq_or_lt_of_le hle with rfl | hlt
      · exact Nat.le_of_eq hb.val
      · have := Fmt.val_strictMono b32 (by decide) hlt
        rw [← hb.val]; omega

theorem upTo_int {n : Nat} {s : Str} {i : Int} (h : i32ok i = true) (hs : UpTo n s) (hi : IntText s i) : Within n (.int i h) := by
  obtain ⟨neg, m, fl, hp, h0, hm⟩ := hs
  refine Or.inl ⟨i, h, rfl, ?_⟩
  obtain ⟨rfl, rfl⟩ := plain_of_int hp hi
  rw [Nat.pow_zero, Nat.mul_one] at hm
  cases neg
  · simp only [Bool.false_eq_true, if_false]; omega
  · rw [h0 rfl]; simp

theorem upTo_within {n k : Nat} (hb : Bound n k) {s : Str} {x : IOF} (hs : UpTo n s) (h : NumberText s x) :
    Within n x := by
  rcases h with ⟨i, h, rfl, hi⟩ | ⟨-, f, rfl, hf⟩
  · exact upTo_int h hs hi
  · exact upTo_float hb hs hf

theorem within_upTo {n k : Nat} (hb : Bound n k) {x : IOF} (hx : Within n x) : UpTo n x.text := by
  rcases hx with ⟨i, h, rfl, h0, hn⟩ | ⟨neg, j, h, rfl, h0, hj⟩
  · refine ⟨_, _, 0, plain_int i, ?_, ?_⟩
    · intro hi
      simp only [decide_eq_true_eq] at hi
      omega
    · omega
  · have hjk : j ≤ k := by
      by_contra hc
      have := Fmt.val_strictMono b32 (by decide) (show k < j by omega)
      rw [hb.val] at this
      omega
    have hji : j ≠ b32.inf := by have := hb.lt; omega
    obtain ⟨m, fl, hp, hr⟩ := show_plain neg j h hji
    have hneg : neg = true → m = 0 := by
      intro hn
      have h0' := h0 hn
      subst h0'
      obtain ⟨body, hs, hm⟩ := hp
      rcases hs with ⟨h1, -⟩ | ⟨-, h1⟩
      · have e : showFloat (.num neg 0 h : F32) = '-' :: toDigits 10 0 := by
          rw [hn, showFloat, if_pos rfl, showMag, if_neg (by decide +kernel), if_pos rfl, toDigits_small (by decide)]
          rfl
        rw [e] at h1
        obtain rfl := (List.cons.inj h1).2
        exact (mantissa_numeral hm ((numeral_iff (by decide) _ _).2 (parseNat_toDigits (by decide) (by decide) 0))).1
      · rw [hn] at h1; cases h1
    rcases Nat.eq_or_lt_of_le hjk with rfl | hlt
    · cases neg
      · have e : IOF.text (.float (.num false j h)) = showMag b32 j := by rw [IOF.text, showFloat]; simp
        rw [e]; exact hb.text
      · have := h0 rfl
        rw [this, Fmt.val_zero] at hj
        refine ⟨true, m, fl, hp, hneg, ?_⟩
        rw [hneg rfl]; exact Nat.zero_le _
    · refine ⟨neg, m, fl, hp, hneg, ?_⟩
      by_contra hc
      have hn := (nearest_iff b32 b32_p2 (Nat.pow_pos (by decide : 0 < 10))).2 hr
      have h1 := hn.near k (Nat.le_of_lt hb.lt)
      have hv := Fmt.val_strictMono b32 (by decide) hlt
      have hv' := Nat.mul_lt_mul_of_pos_right hv (Nat.pow_pos (n := fl) (by decide : 0 < 10))
      have hm' := Nat.mul_lt_mul_of_pos_right (Nat.lt_of_not_le hc) (Nat.pow_pos (n := b32.u) (by decide : 0 < 2))
      have e2 : n * 10 ^ fl * 2 ^ b32.u = n * 2 ^ b32.u * 10 ^ fl := Nat.mul_right_comm _ _ _
      unfold away at h1
      rw [hb.val] at h1 hv'
      rw [e2] at hm'
      omega

end GP
