import Verif.Lemmas.Text
import Verif.Lemmas.Strings
import Verif.Model.Iof
import Verif.Spec.Decimal
/-!
# C79: the numbers in a file
-/
open Fl Fl.Text
namespace GP
open Spec

theorem numeral_digits {s : Str} {n : Nat} : Numeral 10 s n ↔ s ≠ [] ∧ s.all (isDigit 10) = true ∧ n = ofDigits 10 s := by
  rw [numeral_iff (by decide)]
  unfold parseNat
  split
  · next h => simp only [Option.some.injEq]; exact ⟨fun e => ⟨h.1, h.2, e.symm⟩, fun e => e.2.2.symm⟩
  · next h => simp only [reduceCtorEq, false_iff]; exact fun e => h ⟨e.1, e.2.1⟩

theorem parseNat_iff {s : Str} {n : Nat} : parseNat 10 s = some n ↔ Numeral 10 s n := (numeral_iff (by decide) s n).symm

/-- Digits do not start with a sign. -/
theorem numeral_nosign {s : Str} {n : Nat} (h : Numeral 10 s n) : (∀ r, s ≠ '+' :: r) ∧ ∀ r, s ≠ '-' :: r := by
  obtain ⟨-, h2, -⟩ := numeral_digits.1 h
  refine ⟨fun r e => ?_, fun r e => ?_⟩ <;> rw [e] at h2 <;> simp [isDigit, digitVal] at h2

theorem round_dec (f : Fmt) (m : Nat) (x : Int) (xp xn : Nat) (hp : x.toNat = xp) (hn : (-x).toNat = xn) :
    decOrd f m xp xn = f.round (m * 10 ^ x.toNat) (10 ^ (-x).toNat) := by
  rw [hp, hn]; rfl

theorem parseExp_iff (f : Fmt) (m fl : Nat) (r : Str) (k : Nat) :
    parseExp f m fl r = some k ↔ ∃ e : Int, Exponent r e ∧ f.round (m * 10 ^ (e - fl).toNat) (10 ^ (-(e - fl)).toNat) = k := by
  constructor
  · intro h
    unfold parseExp at h
    split at h
    · cases h
      exact ⟨0, Or.inl ⟨rfl, rfl⟩, (round_dec f m _ _ _ (by omega) (by omega)).symm⟩
    · next c r' =>
      split at h
      · next hc =>
        split at h
        · next ds =>
          obtain ⟨n, hn, rfl⟩ := Option.map_eq_some_iff.1 h
          exact ⟨-(n : Int), Or.inr ⟨c, _, true, ds, n, rfl, hc, Or.inl ⟨rfl, rfl⟩, parseNat_iff.1 hn, rfl⟩,
            (round_dec f m _ _ _ (by omega) (by omega)).symm⟩
        · next ds =>
          obtain ⟨n, hn, rfl⟩ := Option.map_eq_some_iff.1 h
          exact ⟨(n : Int), Or.inr ⟨c, _, false, ds, n, rfl, hc, Or.inr (Or.inl ⟨rfl, rfl⟩), parseNat_iff.1 hn, rfl⟩,
            (round_dec f m _ _ _ (by omega) (by omega)).symm⟩
        · next ds _ _ =>
          obtain ⟨n, hn, rfl⟩ := Option.map_eq_some_iff.1 h
          exact ⟨(n : Int), Or.inr ⟨c, _, false, _, n, rfl, hc, Or.inr (Or.inr ⟨rfl, rfl⟩), parseNat_iff.1 hn, rfl⟩,
            (round_dec f m _ _ _ (by omega) (by omega)).symm⟩
      · cases h
  · rintro ⟨e, h, rfl⟩
    rcases h with ⟨rfl, rfl⟩ | ⟨c, r', neg, body, n, rfl, hc, hs, hn, rfl⟩
    · exact congrArg some (round_dec f m _ _ _ (by omega) (by omega))
    · unfold parseExp
      simp only [hc, if_true]
      rcases hs with ⟨rfl, rfl⟩ | ⟨rfl, rfl⟩ | ⟨rfl, rfl⟩
      · simp only [parseNat_iff.2 hn, Option.map_some]
        exact congrArg some (round_dec f m _ _ _ (by simp only [if_true]; omega) (by simp only [if_true]; omega))
      · simp only [parseNat_iff.2 hn, Option.map_some]
        exact congrArg some (round_dec f m _ _ _ (by simp) (by simp; omega))
      · obtain ⟨h1, h2⟩ := numeral_nosign hn
        split
        · next ds => exact absurd rfl (h2 ds)
        · next ds => exact absurd rfl (h1 ds)
        · simp only [parseNat_iff.2 hn, Option.map_some]
          exact congrArg some (round_dec f m _ _ _ (by simp) (by simp; omega))

theorem exponent_head {s : Str} {e : Int} (h : Exponent s e) : s = [] ∨ ∃ c r, s = c :: r ∧ isDigit 10 c = false ∧ c ≠ '.' := by
  rcases h with ⟨rfl, -⟩ | ⟨c, r, _, _, _, rfl, hc, -⟩
  · exact Or.inl rfl
  · refine Or.inr ⟨c, r, rfl, ?_⟩
    rcases hc with rfl | rfl <;> decide

theorem takeWhile_before {s t : Str} (h : s.all (isDigit 10) = true) (ht : t = [] ∨ ∃ c r, t = c :: r ∧ isDigit 10 c = false ∧ c ≠ '.') :
    (s ++ t).takeWhile (isDigit 10) = s ∧ (s ++ t).dropWhile (isDigit 10) = t := by
  rcases ht with rfl | ⟨c, r, rfl, hc, -⟩
  · rw [List.append_nil]; exact takeWhile_all h
  · exact takeWhile_stop h hc

theorem takeWhile_spec {p : Char → Bool} (s : Str) : (s.takeWhile p).all p = true := by
  induction s with
  | nil => rfl
  | cons c s ih =>
    by_cases h : p c = true
    · rw [List.takeWhile_cons_of_pos h, List.all_cons, h, ih]; rfl
    · rw [List.takeWhile_cons_of_neg h]; rfl

theorem parseMag_iff (f : Fmt) (s : Str) (k : Nat) :
    parseMag f s = some k ↔ ∃ m x, Decimal s m x ∧ f.round (m * 10 ^ x.toNat) (10 ^ (-x).toNat) = k := by
  constructor
  · intro h
    unfold parseMag at h
    have hs : s = s.takeWhile (isDigit 10) ++ s.dropWhile (isDigit 10) := List.takeWhile_append_dropWhile.symm
    have ha := takeWhile_spec (p := isDigit 10) s
    generalize s.takeWhile (isDigit 10) = ip at *
    generalize s.dropWhile (isDigit 10) = rest at *
    simp only [] at h
    split at h
    · next r =>
      have hr : r = r.takeWhile (isDigit 10) ++ r.dropWhile (isDigit 10) := List.takeWhile_append_dropWhile.symm
      have hb := takeWhile_spec (p := isDigit 10) r
      generalize r.takeWhile (isDigit 10) = fp at *
      generalize r.dropWhile (isDigit 10) = ex at *
      split at h
      · cases h
      · next hne =>
        obtain ⟨e, he, hk⟩ := (parseExp_iff ..).1 h
        refine ⟨_, _, ⟨ip ++ '.' :: fp, ex, fp.length, e, by rw [hs, hr]; simp, ⟨ip, fp, Or.inl rfl, numeral_digits.2 ⟨?_, ?_, rfl⟩, rfl⟩, he, rfl⟩, hk⟩
        · simpa using hne
        · rw [List.all_append, ha, hb]; rfl
    · split at h
      · cases h
      · next hne =>
        obtain ⟨e, he, hk⟩ := (parseExp_iff ..).1 h
        refine ⟨_, _, ⟨ip, _, 0, e, hs, ⟨ip, [], Or.inr ⟨rfl, rfl⟩, numeral_digits.2 ⟨?_, ?_, by rw [List.append_nil]⟩, rfl⟩, he, rfl⟩, hk⟩
        · simpa using hne
        · simpa using ha
  · rintro ⟨m, x, ⟨a, b, fl, e, rfl, ⟨ip, fp, hm, hn, rfl⟩, he, rfl⟩, rfl⟩
    obtain ⟨n1, n2, rfl⟩ := numeral_digits.1 hn
    rw [List.all_append, Bool.and_eq_true] at n2
    have hh := exponent_head he
    unfold parseMag
    rcases hm with rfl | ⟨rfl, rfl⟩
    · obtain ⟨t1, t2⟩ := takeWhile_stop (c := '.') (t := fp ++ b) n2.1 (by decide)
      obtain ⟨t3, t4⟩ := takeWhile_before n2.2 hh
      rw [List.append_assoc, List.cons_append]
      simp only [t1, t2, t3, t4]
      rw [if_neg (by simpa using n1)]
      exact (parseExp_iff ..).2 ⟨e, he, rfl⟩
    · obtain ⟨t1, t2⟩ := takeWhile_before n2.1 hh
      rw [List.append_nil] at n1 ⊢
      simp only [t1, t2]
      have hexp := (parseExp_iff f (ofDigits 10 a) 0 b _).2 ⟨e, he, rfl⟩
      rcases hh with rfl | ⟨c, r, rfl, -, hdot⟩
      · simp only []; rw [if_neg n1]; exact hexp
      · split
        · next r' heq => cases heq; exact absurd rfl hdot
        · rw [if_neg n1]; exact hexp

theorem lowerAscii_eq (c : Char) : lowerAscii c = c.toLower := by
  have h1 : 'A'.val ≤ c.val ↔ 65 ≤ c.toNat := Iff.rfl
  have h2 : c.val ≤ 'Z'.val ↔ c.toNat ≤ 90 := Iff.rfl
  unfold lowerAscii Char.toLower
  by_cases h : 65 ≤ c.toNat ∧ c.toNat ≤ 90
  · rw [if_pos h, dif_pos ⟨h1.2 h.1, h2.2 h.2⟩]
    apply Char.ext
    apply UInt32.toNat_inj.1
    have e : (Char.ofNat (c.toNat + 32)).toNat = c.toNat + 32 := toNat_ofNat (by omega)
    refine e.trans ?_
    show c.val.toNat + 32 = (c.val + 32).toNat
    have : c.val.toNat ≤ 90 := h.2
    rw [UInt32.toNat_add]
    simp
    omega
  · rw [if_neg h, dif_neg fun hh => h ⟨h1.1 hh.1, h2.1 hh.2⟩]

theorem decimal_nosign {s : Str} {m : Nat} {x : Int} (h : Decimal s m x) : (∀ r, s ≠ '+' :: r) ∧ ∀ r, s ≠ '-' :: r := by
  obtain ⟨a, b, fl, e, rfl, ⟨ip, fp, hm, hn, rfl⟩, -, -⟩ := h
  obtain ⟨n1, n2, -⟩ := numeral_digits.1 hn
  rw [List.all_append, Bool.and_eq_true] at n2
  cases ip with
  | nil =>
    rcases hm with rfl | ⟨rfl, rfl⟩
    · simp
    · simp at n1
  | cons c ip =>
    have hc : isDigit 10 c = true := by simpa using (List.all_cons .. ▸ n2.1 : (isDigit 10 c && ip.all (isDigit 10)) = true) |> fun h => (Bool.and_eq_true .. ▸ h : _ ∧ _).1
    have : c ≠ '+' ∧ c ≠ '-' := by
      constructor <;> rintro rfl <;> exact absurd hc (by decide)
    rcases hm with rfl | ⟨rfl, rfl⟩ <;> simp [this]

/-- A character whose small form is a letter is no digit, point or sign. -/
theorem letter_plain {c d : Char} (h : c.toLower = d) (hd : 97 ≤ d.toNat) : isDigit 10 c = false ∧ c ≠ '.' ∧ c ≠ '+' ∧ c ≠ '-' := by
  rw [← lowerAscii_eq] at h
  have hc : 65 ≤ c.toNat := by
    apply Nat.le_of_not_lt
    intro hh
    unfold lowerAscii at h
    rw [if_neg (by omega)] at h
    rw [← h] at hd
    omega
  refine ⟨?_, ?_, ?_, ?_⟩
  · unfold isDigit digitVal
    simp only [decide_eq_false_iff_not]
    split
    · omega
    · split
      · omega
      · split <;> omega
  all_goals
    rintro rfl
    exact absurd hc (by decide)

theorem word_head {s : Str} {w : String} {d : Char} {ds : Str} (h : Word s w) (hw : w.toList = d :: ds) (hd : 97 ≤ d.toNat) :
    ∃ c r, s = c :: r ∧ isDigit 10 c = false ∧ c ≠ '.' ∧ c ≠ '+' ∧ c ≠ '-' := by
  unfold Word at h
  rw [hw] at h
  cases s with
  | nil => cases h
  | cons c r => exact ⟨c, r, rfl, letter_plain (List.cons.inj h).1 hd⟩

theorem parseMag_letter {f : Fmt} {c : Char} {r : Str} (h1 : isDigit 10 c = false) (h2 : c ≠ '.') : parseMag f (c :: r) = none := by
  unfold parseMag
  have h1' : ¬ isDigit 10 c = true := by simp [h1]
  rw [List.takeWhile_cons_of_neg h1', List.dropWhile_cons_of_neg h1']
  simp only []
  split
  · next heq => cases heq; exact absurd rfl h2
  · rfl

/-- A word is one of these three. -/
theorem word_cases {s : Str} (h : Word s "nan" ∨ Word s "inf" ∨ Word s "infinity") :
    ∃ c r, s = c :: r ∧ isDigit 10 c = false ∧ c ≠ '.' ∧ c ≠ '+' ∧ c ≠ '-' := by
  rcases h with h | h | h
  · exact word_head (d := 'n') h rfl (by decide)
  · exact word_head (d := 'i') h rfl (by decide)
  · exact word_head (d := 'i') h rfl (by decide)

/-- What may follow the sign. -/
def Unsigned (f : Fmt) (neg : Bool) (body : Str) (x : Flt f) : Prop :=
  (∃ m e k h, Decimal body m e ∧ x = .num neg k h ∧ Nearest f (m * 10 ^ e.toNat) (10 ^ (-e).toNat) k) ∨
  (Word body "nan" ∧ x = .nan) ∨ ((Word body "inf" ∨ Word body "infinity") ∧ x = .infinity neg)

theorem unsigned_nosign {f : Fmt} {neg : Bool} {body : Str} {x : Flt f} (h : Unsigned f neg body x) :
    (∀ r, body ≠ '+' :: r) ∧ ∀ r, body ≠ '-' :: r := by
  rcases h with ⟨m, e, k, _, hd, -⟩ | ⟨hw, -⟩ | ⟨hw, -⟩
  · exact decimal_nosign hd
  · obtain ⟨c, r, rfl, -, -, h1, h2⟩ := word_cases (Or.inl hw)
    exact ⟨fun r e => h1 (List.cons.inj e).1, fun r e => h2 (List.cons.inj e).1⟩
  · obtain ⟨c, r, rfl, -, -, h1, h2⟩ := word_cases (Or.inr hw)
    exact ⟨fun r e => h1 (List.cons.inj e).1, fun r e => h2 (List.cons.inj e).1⟩

theorem map_lower (s : Str) : s.map lowerAscii = s.map Char.toLower := by
  rw [funext lowerAscii_eq]

theorem parseUnsignedFloat_iff {f : Fmt} (hp : 2 ≤ f.p) (neg : Bool) (s : Str) (x : Flt f) :
    parseUnsignedFloat f neg s = some x ↔ Unsigned f neg s x := by
  have hpos : ∀ e : Int, 0 < 10 ^ (-e).toNat := fun e => Nat.pow_pos (by decide)
  unfold parseUnsignedFloat
  cases hm : parseMag f s with
  | some k =>
    simp only []
    obtain ⟨m, e, hd, hk⟩ := (parseMag_iff ..).1 hm
    have hle : k ≤ f.inf := hk ▸ f.round_le _ _
    rw [dif_pos hle]
    constructor
    · intro h
      cases h
      exact Or.inl ⟨m, e, k, hle, hd, rfl, (nearest_iff f hp (hpos e)).2 hk⟩
    · rintro (⟨m', e', k', hk', hd', rfl, hn⟩ | hw)
      · have := (parseMag_iff f s k').2 ⟨m', e', hd', (nearest_iff f hp (hpos e')).1 hn⟩
        rw [hm] at this
        cases this
        rfl
      · obtain ⟨c, r, rfl, h1, h2, -⟩ := word_cases (s := s) (hw.imp And.left And.left)
        rw [parseMag_letter h1 h2] at hm
        cases hm
  | none =>
    simp only [map_lower]
    have hnd : ∀ m e, ¬ Decimal s m e := fun m e hd => by
      have := (parseMag_iff f s _).2 ⟨m, e, hd, rfl⟩
      rw [hm] at this
      cases this
    unfold Unsigned Word
    constructor
    · intro h
      split at h
      · next hw => cases h; exact Or.inr (Or.inl ⟨hw, rfl⟩)
      · split at h
        · next hw => cases h; exact Or.inr (Or.inr ⟨hw, rfl⟩)
        · cases h
    · rintro (⟨m, e, _, _, hd, -⟩ | ⟨hw, rfl⟩ | ⟨hw, rfl⟩)
      · exact absurd hd (hnd m e)
      · rw [if_pos hw]
      · rw [if_neg, if_pos hw]
        intro hn
        rcases hw with hw | hw <;> rw [hn] at hw <;> exact absurd hw (by decide)

/-- **C79.** Which texts are floats, and which float they are: the nearest one, the even one of two. -/
theorem C79_float {f : Fmt} (hp : 2 ≤ f.p) (s : Str) (x : Flt f) : parseFloat f s = some x ↔ FloatText f s x := by
  have e : FloatText f s x ↔ ∃ neg body, SignedText s neg body ∧ Unsigned f neg body x := Iff.rfl
  rw [e]
  unfold parseFloat
  constructor
  · intro h
    split at h
    · next r => exact ⟨true, r, Or.inl ⟨rfl, rfl⟩, (parseUnsignedFloat_iff hp ..).1 h⟩
    · next r => exact ⟨false, r, Or.inr (Or.inl ⟨rfl, rfl⟩), (parseUnsignedFloat_iff hp ..).1 h⟩
    · exact ⟨false, s, Or.inr (Or.inr ⟨rfl, rfl⟩), (parseUnsignedFloat_iff hp ..).1 h⟩
  · rintro ⟨neg, body, hs, hu⟩
    rcases hs with ⟨rfl, rfl⟩ | ⟨rfl, rfl⟩ | ⟨rfl, rfl⟩
    · exact (parseUnsignedFloat_iff hp ..).2 hu
    · exact (parseUnsignedFloat_iff hp ..).2 hu
    · obtain ⟨h1, h2⟩ := unsigned_nosign hu
      split
      · next r => exact absurd rfl (h2 r)
      · next r => exact absurd rfl (h1 r)
      · exact (parseUnsignedFloat_iff hp ..).2 hu

theorem parseI32_iff (s : Str) (i : Int) : parseI32 s = some i ↔ IntText s i ∧ -(2 ^ 31) ≤ i ∧ i < 2 ^ 31 := by
  unfold parseI32
  constructor
  · intro h
    split at h
    · next r =>
      split at h
      · next n hn =>
        split at h
        · cases h
          exact ⟨⟨true, r, n, Or.inl ⟨rfl, rfl⟩, parseNat_iff.1 hn, rfl⟩, by omega, by omega⟩
        · cases h
      · cases h
    · next r =>
      split at h
      · next n hn =>
        split at h
        · cases h
          exact ⟨⟨false, r, n, Or.inr (Or.inl ⟨rfl, rfl⟩), parseNat_iff.1 hn, rfl⟩, by omega, by omega⟩
        · cases h
      · cases h
    · split at h
      · next n hn =>
        split at h
        · cases h
          exact ⟨⟨false, s, n, Or.inr (Or.inr ⟨rfl, rfl⟩), parseNat_iff.1 hn, rfl⟩, by omega, by omega⟩
        · cases h
      · cases h
  · rintro ⟨⟨neg, body, n, hs, hn, rfl⟩, h1, h2⟩
    rcases hs with ⟨rfl, rfl⟩ | ⟨rfl, rfl⟩ | ⟨rfl, rfl⟩
    · simp only [if_true] at h1
      simp only [parseNat_iff.2 hn, if_true]
      rw [if_pos (by omega)]
    · simp only [Bool.false_eq_true, if_false] at h2
      simp only [parseNat_iff.2 hn, Bool.false_eq_true, if_false]
      rw [if_pos (by omega)]
    · obtain ⟨n1, n2⟩ := numeral_nosign hn
      simp only [Bool.false_eq_true, if_false] at h2
      split
      · next r => exact absurd rfl (n2 r)
      · next r => exact absurd rfl (n1 r)
      · simp only [parseNat_iff.2 hn, Bool.false_eq_true, if_false]
        rw [if_pos (by omega)]

/-- **C79.** What a number in a file is read as: an integer if it is the text of one that fits in 32 bits;
else the nearest float if it is the text of a float; else nothing. -/
theorem C79_number (s : Str) (y : IOF) :
    IOF.parse s = some y ↔
      (∃ i h, y = .int i h ∧ IntText s i) ∨
      ((¬ ∃ i, IntText s i ∧ -(2 ^ 31) ≤ i ∧ i < 2 ^ 31) ∧ ∃ x : F32, y = .float x ∧ FloatText b32 s x) := by
  unfold IOF.parse
  cases h : parseI32 s with
  | some i =>
    have hi := (parseI32_iff s i).1 h
    have hok : i32ok i = true := (IOF.i32ok_iff i).2 hi.2
    simp only []
    rw [dif_pos hok]
    constructor
    · intro e
      cases e
      exact Or.inl ⟨i, hok, rfl, hi.1⟩
    · rintro (⟨j, hj, rfl, ht⟩ | ⟨hn, -⟩)
      · have := (parseI32_iff s j).2 ⟨ht, (IOF.i32ok_iff j).1 hj⟩
        rw [h] at this
        cases this
        rfl
      · exact absurd ⟨i, hi⟩ hn
  | none =>
    have hn : ¬ ∃ i, IntText s i ∧ -(2 ^ 31) ≤ i ∧ i < 2 ^ 31 := by
      rintro ⟨i, hi⟩
      rw [(parseI32_iff s i).2 hi] at h
      cases h
    simp only [Option.map_eq_some_iff]
    constructor
    · rintro ⟨x, hx, rfl⟩
      exact Or.inr ⟨hn, x, rfl, (C79_float b32_p2 s x).1 hx⟩
    · rintro (⟨j, hj, rfl, ht⟩ | ⟨-, x, rfl, hx⟩)
      · exact absurd ⟨j, ht, (IOF.i32ok_iff j).1 hj⟩ hn
      · exact ⟨x, (C79_float b32_p2 s x).2 hx, rfl⟩

/-- **C79.** The texts accepted are those of floats; those of integers are among them. -/
theorem C79_accepted (s : Str) : (∃ y, IOF.parse s = some y) ↔ IsNumber s := by
  constructor
  · rintro ⟨y, h⟩
    rcases (C79_number s y).1 h with ⟨i, _, -, neg, body, n, hs, hn, -⟩ | ⟨-, x, -, hx⟩
    · refine ⟨_, neg, body, hs, Or.inl ⟨n, 0, _, b32.round_le _ _, ⟨body, [], 0, 0, by simp, ⟨body, [], Or.inr ⟨rfl, rfl⟩, by simpa using hn, rfl⟩,
        Or.inl ⟨rfl, rfl⟩, rfl⟩, rfl, (nearest_iff b32 b32_p2 (Nat.pow_pos (by decide))).2 rfl⟩⟩
    · exact ⟨x, hx⟩
  · rintro ⟨x, hx⟩
    by_cases hi : ∃ i, IntText s i ∧ -(2 ^ 31) ≤ i ∧ i < 2 ^ 31
    · obtain ⟨i, hi, hr⟩ := hi
      exact ⟨_, (C79_number s _).2 (Or.inl ⟨i, (IOF.i32ok_iff i).2 hr, rfl, hi⟩)⟩
    · exact ⟨_, (C79_number s _).2 (Or.inr ⟨hi, x, rfl, hx⟩)⟩

/-- The value of a decimal number is known exactly if it is that of a float. -/
theorem C79_exact {f : Fmt} (hp : 2 ≤ f.p) {s : Str} {m k : Nat} {e : Int} (hd : Decimal s m e) (hk : k ≤ f.inf)
    (hv : m * 10 ^ e.toNat * 2 ^ f.u = f.val k * 10 ^ (-e).toNat) : parseFloat f s = some (.num false k hk) := by
  refine (C79_float hp s _).2 ⟨false, s, Or.inr (Or.inr ⟨rfl, rfl⟩), Or.inl ⟨m, e, k, hk, hd, rfl, ?_⟩⟩
  exact (nearest_iff f hp (Nat.pow_pos (by decide))).2 (Fmt.round_val f (by omega) (Nat.pow_pos (by decide)) hk hv)

/-- `-12.5e+1` is minus 125, `1e400` is infinite and `٣` (a digit, but not of these) is no number. -/
example : IntText "-12".toList (-12) ∧ (∃ m e, Decimal "12.5e+1".toList m e ∧ m = 125 ∧ e = 0) ∧
    IOF.parse "1e400".toList = some (.float (.infinity false)) ∧ IOF.parse "٣".toList = none := by
  refine ⟨⟨true, "12".toList, 12, Or.inl ⟨rfl, rfl⟩, (numeral_iff (by decide) _ _).2 (by decide), rfl⟩,
    ⟨125, 0, ⟨"12.5".toList, "e+1".toList, 1, 1, rfl, ⟨"12".toList, "5".toList, Or.inl rfl, (numeral_iff (by decide) _ _).2 (by decide), rfl⟩,
      Or.inr ⟨'e', "+1".toList, false, "1".toList, 1, rfl, Or.inl rfl, Or.inr (Or.inl ⟨rfl, rfl⟩), (numeral_iff (by decide) _ _).2 (by decide), rfl⟩, rfl⟩,
      rfl, rfl⟩, by decide +kernel, by decide +kernel⟩

end GP
