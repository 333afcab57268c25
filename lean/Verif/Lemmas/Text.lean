import Verif.Model.Text
import Verif.Spec.Text
import Verif.Lemmas.Numbers
import Verif.Lemmas.Strings
/-! Lemmas on numerals, colours and anchors. -/
open Fl Fl.Text
namespace GP
open Spec
variable {PD : Type}

theorem char_le_iff (a b : Char) : a ≤ b ↔ a.toNat ≤ b.toNat := Iff.rfl

theorem digit_eq (c : Char) : digit c = if digitVal c < 16 then some (digitVal c) else none := by
  unfold digit digitVal
  simp only [char_le_iff]
  have h0 : '0'.toNat = 48 := rfl
  have h9 : '9'.toNat = 57 := rfl
  have hA : 'A'.toNat = 65 := rfl
  have hF : 'F'.toNat = 70 := rfl
  have ha : 'a'.toNat = 97 := rfl
  have hf : 'f'.toNat = 102 := rfl
  rw [h0, h9, hA, hF, ha, hf]
  by_cases h1 : 48 ≤ c.toNat ∧ c.toNat ≤ 57
  · simp only [h1, and_self, if_true]
    rw [if_pos (by omega)]
  · rw [if_neg h1, if_neg h1]
    by_cases h2 : 65 ≤ c.toNat ∧ c.toNat ≤ 70
    · simp only [h2, and_self, if_true]
      rw [if_pos (by omega)]
      congr 1
      omega
    · rw [if_neg h2, if_neg h2]
      by_cases h3 : 97 ≤ c.toNat ∧ c.toNat ≤ 102
      · simp only [h3, and_self, if_true]
        rw [if_pos (by omega)]
        congr 1
        omega
      · rw [if_neg h3, if_neg h3, if_neg (by omega)]

theorem digit_some {b : Nat} (hb : b ≤ 16) {c : Char} {d : Nat} :
    (digit c = some d ∧ d < b) ↔ (isDigit b c = true ∧ digitVal c = d) := by
  rw [digit_eq]
  unfold isDigit
  constructor
  · rintro ⟨h1, h2⟩
    split at h1
    · cases h1; simp [h2]
    · cases h1
  · rintro ⟨h1, rfl⟩
    simp at h1
    rw [if_pos (by omega)]
    exact ⟨rfl, h1⟩

theorem numeral_iff {b : Nat} (hb : b ≤ 16) (s : Str) (n : Nat) :
    Numeral b s n ↔ parseNat b s = some n := by
  constructor
  · intro h
    induction h with
    | one c d h1 h2 =>
      obtain ⟨h3, h4⟩ := (digit_some hb).1 ⟨h1, h2⟩
      unfold parseNat
      rw [if_pos ⟨by simp, by simp [h3]⟩]
      simp [ofDigits, h4]
    | more s n c d hs h1 h2 ih =>
      obtain ⟨h3, h4⟩ := (digit_some hb).1 ⟨h1, h2⟩
      unfold parseNat at ih ⊢
      split at ih
      next hh =>
        cases ih
        rw [if_pos ⟨by simp, by simpa [h3] using hh.2⟩, ofDigits_append_single, h4]
      next => cases ih
  · unfold parseNat
    split
    next hh =>
      intro e
      cases e
      obtain ⟨hne, hall⟩ := hh
      have : ∀ k (s : Str), s.length = k + 1 → s.all (isDigit b) = true → Numeral b s (ofDigits b s) := by
        intro k
        induction k with
        | zero =>
          intro s hs hall
          match s, hs with
          | [c], _ =>
            simp at hall
            obtain ⟨h1, h2⟩ := (digit_some hb).2 ⟨hall, rfl⟩
            have : ofDigits b [c] = digitVal c := by simp [ofDigits]
            rw [this]
            exact .one c _ h1 h2
        | succ k ih =>
          intro s hs hall
          rcases List.eq_nil_or_concat s with rfl | ⟨t, c, rfl⟩
          · simp at hs
          · rw [List.concat_eq_append] at *
            simp at hs hall
            obtain ⟨h1, h2⟩ := (digit_some hb).2 ⟨hall.2, rfl⟩
            rw [ofDigits_append_single]
            exact .more t _ c _ (ih t hs (by simpa using hall.1)) h1 h2
      cases s with
      | nil => exact absurd rfl hne
      | cons a s => exact this s.length (a :: s) rfl hall
    next => intro e; cases e

theorem numeral_head {b : Nat} (hb : b ≤ 16) {s : Str} {n : Nat} (h : Numeral b s n) :
    ∀ r, s ≠ '+' :: r := by
  have := (numeral_iff hb s n).1 h
  unfold parseNat at this
  split at this
  next hh => exact (digits_head hb hh.2).1
  next => cases this

theorem parseUnsigned_iff {b : Nat} (hb : b ≤ 16) (bound : Nat) (s : Str) (n : Nat) :
    parseUnsigned b bound s = some n ↔ Signed b s n ∧ n < bound := by
  have key : ∀ body : Str, (match parseNat b body with
      | some n => if n < bound then some n else none
      | none => none) = some n ↔ Numeral b body n ∧ n < bound := by
    intro body
    rw [numeral_iff hb]
    cases parseNat b body with
    | none => simp
    | some m =>
      simp
      grind
  unfold parseUnsigned Signed
  split
  next r =>
    refine (key _).trans ?_
    constructor
    · rintro ⟨h1, h2⟩; exact ⟨Or.inr ⟨r, rfl, h1⟩, h2⟩
    · rintro ⟨h1 | ⟨r', he, h1⟩, h2⟩
      · exact absurd rfl (numeral_head hb h1 r)
      · cases he; exact ⟨h1, h2⟩
  next hx =>
    refine (key _).trans ?_
    constructor
    · rintro ⟨h1, h2⟩; exact ⟨Or.inl h1, h2⟩
    · rintro ⟨h1 | ⟨r', he, h1⟩, h2⟩
      · exact ⟨h1, h2⟩
      · exact absurd he (hx r')

theorem charFromU32_iff (n : Nat) (c : Char) : charFromU32 n = some c ↔ c.toNat = n := by
  unfold charFromU32
  constructor
  · intro h
    split at h
    · cases h; rfl
    · cases h
  · rintro rfl
    have hv : c.toNat.isValidChar := c.valid
    rw [dif_pos hv]
    congr 1

theorem char_lt (c : Char) : c.toNat < 2 ^ 32 := by
  have := c.valid
  have h : c.toNat.isValidChar := this
  unfold Nat.isValidChar at h
  omega

theorem toDigits_head {b : Nat} (hb : 2 ≤ b) (hb' : b ≤ 16) (n : Nat) (hn : 0 < n) :
    ∃ c r, toDigits b n = c :: r ∧ c ≠ '0' := by
  induction n using digitInd hb with
  | h0 n h =>
    rw [toDigits_small h]
    refine ⟨_, _, rfl, ?_⟩
    intro e
    have := digitVal_digitChar n (by omega)
    rw [e] at this
    have : n = 0 := by rw [← this]; rfl
    omega
  | h1 n h ih =>
    obtain ⟨c, r, e, hc⟩ := ih (Nat.div_pos h (by omega))
    rw [toDigits_big hb h, e]
    exact ⟨c, _, rfl, hc⟩

theorem toDigits_chars {b : Nat} (hb : 2 ≤ b) (hb' : b ≤ 16) (n : Nat) :
    ∀ c ∈ toDigits b n, ∃ d, d < b ∧ c = digitChar d := by
  induction n using digitInd hb with
  | h0 n h =>
    rw [toDigits_small h]
    intro c hc
    exact ⟨n, h, by simpa using hc⟩
  | h1 n h ih =>
    rw [toDigits_big hb h]
    intro c hc
    rcases List.mem_append.1 hc with hc | hc
    · exact ih c hc
    · exact ⟨n % b, Nat.mod_lt _ (by omega), by simpa using hc⟩

/-! ### No commas in numbers -/

theorem digits_no_comma (n : Nat) : ',' ∉ toDigits 10 n := by
  intro h
  obtain ⟨d, hd, e⟩ := toDigits_chars (by decide) (by decide) n ',' h
  have : ∀ d, d < 10 → ',' ≠ digitChar d := by decide
  exact this d hd e

theorem showInt_no_comma (i : Int) : ',' ∉ showInt i := by
  unfold showInt
  split
  · intro h
    rcases List.mem_cons.1 h with h | h
    · exact absurd h (by decide)
    · exact digits_no_comma _ h
  · exact digits_no_comma _

theorem showDec_no_comma (d xp xn : Nat) : ',' ∉ showDec d xp xn := by
  unfold showDec
  split
  · exact digits_no_comma _
  · intro h
    rcases List.mem_append.1 h with h | h
    · exact digits_no_comma _ h
    · rcases List.mem_cons.1 h with h | h
      · exact absurd h (by decide)
      · unfold padZero at h
        rcases List.mem_append.1 h with h | h
        · have := (List.mem_replicate.1 h).2
          exact absurd this (by decide)
        · exact digits_no_comma _ h

theorem showMag_no_comma (f : Fmt) (k : Nat) : ',' ∉ showMag f k := by
  unfold showMag
  split
  · decide
  · split
    · decide
    · exact showDec_no_comma _ _ _

theorem showFloat_no_comma {f : Fmt} (x : Flt f) : ',' ∉ showFloat x := by
  unfold showFloat
  split
  · decide
  · split
    · intro h
      rcases List.mem_cons.1 h with h | h
      · exact absurd h (by decide)
      · exact showMag_no_comma _ _ h
    · exact showMag_no_comma _ _

theorem text_no_comma (x : IOF) : ',' ∉ x.text := by
  cases x with
  | int i h => exact showInt_no_comma i
  | float f => exact showFloat_no_comma f

theorem splitOn_append {sep : Char} {a : Str} (h : sep ∉ a) (b : Str) :
    splitOn sep (a ++ sep :: b) = a :: splitOn sep b := by
  induction a with
  | nil => simp [splitOn]
  | cons c a ih =>
    rw [List.cons_append, splitOn, if_neg (fun e => h (by simp [e])), ih (fun hm => h (by simp [hm]))]

/-- The first field of a split and what follows. -/
theorem splitOn_cons {sep : Char} (s : Str) : ∃ a l, splitOn sep s = a :: l ∧ sep ∉ a ∧
    ((l = [] ∧ s = a) ∨ ∃ r, s = a ++ sep :: r ∧ l = splitOn sep r) := by
  induction s with
  | nil => exact ⟨[], [], rfl, by simp, Or.inl ⟨rfl, rfl⟩⟩
  | cons c s ih =>
    by_cases hc : c = sep
    · subst hc
      refine ⟨[], splitOn c s, by simp [splitOn], by simp, Or.inr ⟨s, rfl, rfl⟩⟩
    · obtain ⟨a, l, e, ha, h⟩ := ih
      refine ⟨c :: a, l, by rw [splitOn, if_neg hc, e], by simp [ha]; exact fun e => hc e.symm, ?_⟩
      rcases h with ⟨h1, h2⟩ | ⟨r, h1, h2⟩
      · exact Or.inl ⟨h1, by rw [h2]⟩
      · exact Or.inr ⟨r, by rw [h1]; rfl, h2⟩

/-- The first four fields of a split. -/
theorem splitOn_four (s a b c d : Str) :
    (∃ l, splitOn ',' s = a :: b :: c :: d :: l) ↔ FourFields s a b c d := by
  constructor
  · rintro ⟨l, e⟩
    obtain ⟨a1, l1, e1, ha, h1⟩ := splitOn_cons (sep := ',') s
    rw [e1] at e
    cases e
    rcases h1 with ⟨h, _⟩ | ⟨s1, rfl, h1⟩
    · cases h
    obtain ⟨a1, l1, e1, hb, h2⟩ := splitOn_cons (sep := ',') s1
    rw [e1] at h1
    cases h1
    rcases h2 with ⟨h, _⟩ | ⟨s2, rfl, h2⟩
    · cases h
    obtain ⟨a1, l1, e1, hc, h3⟩ := splitOn_cons (sep := ',') s2
    rw [e1] at h2
    cases h2
    rcases h3 with ⟨h, _⟩ | ⟨s3, rfl, h3⟩
    · cases h
    obtain ⟨a1, l1, e1, hd, h4⟩ := splitOn_cons (sep := ',') s3
    rw [e1] at h3
    cases h3
    refine ⟨ha, hb, hc, hd, ?_⟩
    rcases h4 with ⟨_, rfl⟩ | ⟨r, rfl, _⟩
    · exact ⟨[], by simp, Or.inl rfl⟩
    · exact ⟨',' :: r, by simp, Or.inr rfl⟩
  · rintro ⟨ha, hb, hc, hd, rest, rfl, hr⟩
    simp only [List.append_assoc, List.cons_append]
    rw [splitOn_append ha, splitOn_append hb, splitOn_append hc]
    rcases hr with rfl | hr
    · exact ⟨[], by rw [List.append_nil, splitOn_none hd]⟩
    · cases rest with
      | nil => simp at hr
      | cons x r =>
        simp at hr
        subst hr
        exact ⟨_, by rw [splitOn_append hd]⟩

theorem color_parse_fields {s a b c d : Str} (h : FourFields s a b c d) :
    Color.parse s = (do
      let r ← Out.ofOption .colorNotRGBA (IOF.parse a)
      let g ← Out.ofOption .colorNotRGBA (IOF.parse b)
      let b ← Out.ofOption .colorNotRGBA (IOF.parse c)
      let a ← Out.ofOption .colorNotRGBA (IOF.parse d)
      .ok { r := r, g := g, b := b, a := a } : R Color) := by
  obtain ⟨l, e⟩ := (splitOn_four s a b c d).2 h
  unfold Color.parse
  rw [e]

theorem color_text_fields (c : Color) : FourFields c.text c.r.text c.g.text c.b.text c.a.text :=
  ⟨text_no_comma _, text_no_comma _, text_no_comma _, text_no_comma _, [],
    by simp [Color.text], Or.inl rfl⟩

theorem toU64_spec (x : F32) (n : Nat) : x.toU64 = n ↔ TruncatesTo x n := by
  cases x with
  | nan => simp [Flt.toU64, TruncatesTo, eq_comm]
  | num s k h =>
    cases s with
    | true => simp [Flt.toU64, TruncatesTo, eq_comm]
    | false =>
      unfold Flt.toU64 TruncatesTo
      simp only [Bool.false_eq_true, if_false]
      by_cases hk : k = b32.inf
      · rw [if_pos hk, if_pos hk]; exact eq_comm
      · rw [if_neg hk, if_neg hk]
        show min (b32.val k / 2 ^ 149) (2 ^ 64 - 1) = n ↔ _
        have hU : 0 < 2 ^ 149 := Nat.pow_pos (by decide)
        generalize 2 ^ 149 = U at *
        generalize b32.val k = v at *
        have h1 := Nat.div_mul_le_self v U
        have h2 := Nat.lt_div_mul_add (a := v) (b := U) hU
        generalize hq : v / U = q at *
        have hle : ∀ m, m * U ≤ v ↔ m ≤ q := by
          intro m; rw [← hq, Nat.le_div_iff_mul_le hU]
        rw [hle, hle]
        have hlt : v < (n + 1) * U ↔ q < n + 1 := by
          rw [← hq, Nat.div_lt_iff_lt_mul hU]
        rw [hlt]
        omega

end GP
