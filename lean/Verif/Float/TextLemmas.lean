import Verif.Float.Text
import Verif.Float.Lemmas
/-! Text round trips for integers and floats. -/
namespace Fl
namespace Text

theorem digitVal_digitChar : ∀ n, n < 16 → digitVal (digitChar n) = n := by decide

theorem digitChar_ne : ∀ n, n < 16 → digitChar n ≠ '+' ∧ digitChar n ≠ '-' ∧ digitChar n ≠ '.' := by
  decide

theorem isDigit_digitChar {b n : Nat} (hb : b ≤ 16) (h : n < b) : isDigit b (digitChar n) = true := by
  unfold isDigit
  rw [digitVal_digitChar n (by omega)]
  simp [h]

theorem toDigits_eq (b n : Nat) : toDigits b n =
    if b < 2 ∨ n < b then [digitChar n] else toDigits b (n / b) ++ [digitChar (n % b)] := by
  rw [toDigits]
  split <;> rfl

/-- Induction along the digits. -/
theorem digitInd {b : Nat} (hb : 2 ≤ b) {P : Nat → Prop} (h0 : ∀ n, n < b → P n)
    (h1 : ∀ n, b ≤ n → P (n / b) → P n) (n : Nat) : P n := by
  induction n using Nat.strongRecOn with
  | _ n ih =>
    by_cases h : n < b
    · exact h0 n h
    · exact h1 n (by omega) (ih _ (Nat.div_lt_self (by omega) (by omega)))

theorem toDigits_small {b n : Nat} (h : n < b) : toDigits b n = [digitChar n] := by
  rw [toDigits_eq, if_pos (Or.inr h)]

theorem toDigits_big {b n : Nat} (hb : 2 ≤ b) (h : b ≤ n) :
    toDigits b n = toDigits b (n / b) ++ [digitChar (n % b)] := by
  rw [toDigits_eq, if_neg (by omega)]

theorem toDigits_ne_nil (b n : Nat) : toDigits b n ≠ [] := by
  rw [toDigits_eq]
  split <;> simp

theorem toDigits_all {b : Nat} (hb : 2 ≤ b) (hb' : b ≤ 16) (n : Nat) :
    (toDigits b n).all (isDigit b) = true := by
  induction n using digitInd hb with
  | h0 n h => rw [toDigits_small h]; simp [isDigit_digitChar hb' h]
  | h1 n h ih =>
    rw [toDigits_big hb h, List.all_append, ih]
    simp [isDigit_digitChar hb' (Nat.mod_lt n (by omega))]

theorem ofDigits_append_single (b : Nat) (s : Str) (c : Char) :
    ofDigits b (s ++ [c]) = ofDigits b s * b + digitVal c := by
  unfold ofDigits
  rw [List.foldl_append]
  rfl

theorem ofDigits_toDigits {b : Nat} (hb : 2 ≤ b) (hb' : b ≤ 16) (n : Nat) :
    ofDigits b (toDigits b n) = n := by
  induction n using digitInd hb with
  | h0 n h =>
    rw [toDigits_small h]
    show 0 * b + digitVal (digitChar n) = n
    rw [digitVal_digitChar n (by omega)]; omega
  | h1 n h ih =>
    rw [toDigits_big hb h, ofDigits_append_single, ih,
      digitVal_digitChar _ (by have := Nat.mod_lt n (show 0 < b by omega); omega)]
    exact Nat.div_add_mod' n b

theorem parseNat_toDigits {b : Nat} (hb : 2 ≤ b) (hb' : b ≤ 16) (n : Nat) :
    parseNat b (toDigits b n) = some n := by
  unfold parseNat
  rw [if_pos ⟨toDigits_ne_nil b n, toDigits_all hb hb' n⟩, ofDigits_toDigits hb hb']

theorem isDigit_plus {b : Nat} (hb : b ≤ 16) : isDigit b '+' = false := by
  simp [isDigit, digitVal]; omega

theorem isDigit_minus {b : Nat} (hb : b ≤ 16) : isDigit b '-' = false := by
  simp [isDigit, digitVal]; omega

/-- A non-empty digit string does not start with a sign. -/
theorem digits_head {b : Nat} (hb : b ≤ 16) {s : Str} (h : s.all (isDigit b) = true) :
    (∀ r, s ≠ '+' :: r) ∧ (∀ r, s ≠ '-' :: r) := by
  constructor
  · intro r hr
    subst hr
    simp [isDigit_plus hb] at h
  · intro r hr
    subst hr
    simp [isDigit_minus hb] at h

theorem parseUnsigned_digits {b bound : Nat} (hb : b ≤ 16) {s : Str}
    (h : s.all (isDigit b) = true) :
    parseUnsigned b bound s = (parseNat b s).bind fun n => if n < bound then some n else none := by
  unfold parseUnsigned
  have := (digits_head hb h).1
  split
  next r => exact absurd rfl (this r)
  next => simp only []; cases parseNat b s <;> rfl

theorem parseUnsigned_toDigits {b bound n : Nat} (hb : 2 ≤ b) (hb' : b ≤ 16) (hn : n < bound) :
    parseUnsigned b bound (toDigits b n) = some n := by
  rw [parseUnsigned_digits hb' (toDigits_all hb hb' n), parseNat_toDigits hb hb']
  simp [hn]

theorem parseU64_toDigits {n : Nat} (hn : n < 2 ^ 64) : parseU64 (toDigits 10 n) = some n :=
  parseUnsigned_toDigits (by decide) (by decide) hn

theorem parseI32_digits {s : Str} (h : s.all (isDigit 10) = true) :
    parseI32 s = (parseNat 10 s).bind fun n => if n < 2 ^ 31 then some (n : Int) else none := by
  unfold parseI32
  have := digits_head (b := 10) (by decide) h
  split
  next r => exact absurd rfl (this.2 r)
  next r => exact absurd rfl (this.1 r)
  next => cases parseNat 10 s <;> rfl

theorem parseI32_showInt {i : Int} (h1 : -(2 ^ 31) ≤ i) (h2 : i < 2 ^ 31) :
    parseI32 (showInt i) = some i := by
  unfold showInt
  split
  next h =>
    simp only [parseI32, parseNat_toDigits (b := 10) (by decide) (by decide)]
    rw [if_pos (by omega)]
    congr 1; omega
  next h =>
    rw [parseI32_digits (toDigits_all (by decide) (by decide) _),
      parseNat_toDigits (by decide) (by decide)]
    simp only [Option.bind_some]
    rw [if_pos (by omega)]
    congr 1; omega

/-! ### Floats -/

theorem strip_spec (x : Nat) : ∀ d, (strip d x).2 ≤ x ∧ (strip d x).1 * 10 ^ (x - (strip d x).2) = d := by
  induction x with
  | zero => intro d; simp [strip]
  | succ x ih =>
    intro d
    unfold strip
    split
    next h =>
      obtain ⟨h1, h2⟩ := ih (d / 10)
      refine ⟨by omega, ?_⟩
      have : x + 1 - (strip (d / 10) x).2 = (x - (strip (d / 10) x).2) + 1 := by omega
      rw [this, Nat.pow_succ, ← Nat.mul_assoc, h2]
      omega
    next h => simp

theorem decOrd_exact {f : Fmt} (hp : 1 ≤ f.p) {k : Nat} (hk : k ≤ f.inf) :
    decOrd f (exactDec f (f.val k)).1 (exactDec f (f.val k)).2.1 (exactDec f (f.val k)).2.2 = k := by
  unfold decOrd exactDec
  apply Fmt.round_val f hp (Nat.pow_pos (by decide)) hk
  simp only [Nat.pow_zero, Nat.mul_one]
  rw [Nat.mul_assoc, ← Nat.mul_pow]

/-- Whatever the search returns rounds to `k`. -/
theorem search_spec {f : Fmt} (hp : 1 ≤ f.p) {k : Nat} (hk : k ≤ f.inf) :
    ∀ fuel n, decOrd f (search f k fuel n).1 (search f k fuel n).2.1 (search f k fuel n).2.2 = k := by
  intro fuel
  induction fuel with
  | zero => intro n; exact decOrd_exact hp hk
  | succ fuel ih =>
    intro n
    unfold search
    simp only []
    split
    next h => exact h
    next h =>
      split
      next h => exact h
      next h => exact ih (n + 1)

/-- Results of the search have only one of the two exponents. -/
theorem search_exp {f : Fmt} {k : Nat} :
    ∀ fuel n, (search f k fuel n).2.1 = 0 ∨ (search f k fuel n).2.2 = 0 := by
  intro fuel
  induction fuel with
  | zero => intro n; exact Or.inl rfl
  | succ fuel ih =>
    intro n
    unfold search
    simp only []
    split
    next h =>
      unfold cand
      simp only []
      split <;> simp
    next h =>
      split
      next h =>
        unfold cand
        simp only []
        split <;> simp
      next h => exact ih (n + 1)

theorem foldl_digits (b : Nat) (t : Str) : ∀ acc, t.foldl (fun acc c => acc * b + digitVal c) acc =
    acc * b ^ t.length + ofDigits b t := by
  induction t with
  | nil => intro acc; simp [ofDigits]
  | cons c t ih =>
    intro acc
    unfold ofDigits
    simp only [List.foldl_cons, List.length_cons]
    rw [ih (acc * b + digitVal c), ih (0 * b + digitVal c), Nat.pow_succ, Nat.add_mul,
      Nat.mul_assoc, Nat.mul_comm b, Nat.zero_mul, Nat.zero_add, Nat.add_assoc]

theorem ofDigits_append (b : Nat) (s t : Str) :
    ofDigits b (s ++ t) = ofDigits b s * b ^ t.length + ofDigits b t := by
  conv => lhs; unfold ofDigits
  rw [List.foldl_append, foldl_digits]
  rfl

theorem ofDigits_replicate_zero (b w : Nat) : ofDigits b (List.replicate w '0') = 0 := by
  induction w with
  | zero => rfl
  | succ w ih =>
    rw [List.replicate_succ', ofDigits_append_single, ih]
    simp [digitVal]

theorem ofDigits_padZero (b w : Nat) (s : Str) : ofDigits b (padZero w s) = ofDigits b s := by
  unfold padZero
  rw [ofDigits_append, ofDigits_replicate_zero]; omega

theorem all_padZero (w : Nat) {s : Str} (h : s.all (isDigit 10) = true) :
    (padZero w s).all (isDigit 10) = true := by
  unfold padZero
  rw [List.all_append, h]
  have : (List.replicate (w - s.length) '0').all (isDigit 10) = true := by
    rw [List.all_eq_true]
    intro c hc
    rw [List.eq_of_mem_replicate hc]
    decide
  rw [this]; rfl

theorem toDigits_length_le (w : Nat) (hw : 1 ≤ w) : ∀ n, n < 10 ^ w → (toDigits 10 n).length ≤ w := by
  induction w with
  | zero => omega
  | succ w ih =>
    intro n hn
    by_cases h : n < 10
    · rw [toDigits_small h]; simp
    · rw [toDigits_big (by decide) (by omega), List.length_append]
      have hw0 : 1 ≤ w := by
        rcases Nat.eq_zero_or_pos w with h0 | h0
        · subst h0; simp at hn; omega
        · exact h0
      have := ih hw0 (n / 10) (by
        rw [Nat.pow_succ] at hn
        exact Nat.div_lt_of_lt_mul (by omega))
      simp only [List.length_singleton]
      omega

theorem padZero_length {w : Nat} {s : Str} (h : s.length ≤ w) : (padZero w s).length = w := by
  unfold padZero
  rw [List.length_append, List.length_replicate]; omega

theorem takeWhile_all {p : Char → Bool} {s : Str} (h : s.all p = true) :
    s.takeWhile p = s ∧ s.dropWhile p = [] := by
  induction s with
  | nil => simp
  | cons c s ih =>
    simp only [List.all_cons, Bool.and_eq_true] at h
    simp [h.1, ih h.2]

theorem takeWhile_stop {p : Char → Bool} {s t : Str} {c : Char} (h : s.all p = true)
    (hc : p c = false) : (s ++ c :: t).takeWhile p = s ∧ (s ++ c :: t).dropWhile p = c :: t := by
  induction s with
  | nil => simp [hc]
  | cons d s ih =>
    simp only [List.all_cons, Bool.and_eq_true] at h
    simp [h.1, ih h.2]

theorem parseMag_digits {f : Fmt} {s : Str} (hs : s ≠ []) (h : s.all (isDigit 10) = true) :
    parseMag f s = some (decOrd f (ofDigits 10 s) 0 0) := by
  unfold parseMag
  obtain ⟨h1, h2⟩ := takeWhile_all h
  simp only [h1, h2, hs, if_false]
  rfl

theorem parseMag_point {f : Fmt} {s t : Str} (hs : s ≠ []) (h : s.all (isDigit 10) = true)
    (ht : t.all (isDigit 10) = true) :
    parseMag f (s ++ '.' :: t) = some (decOrd f (ofDigits 10 (s ++ t)) 0 t.length) := by
  unfold parseMag
  obtain ⟨h1, h2⟩ := takeWhile_stop (c := '.') (t := t) h (by decide)
  obtain ⟨h3, h4⟩ := takeWhile_all ht
  simp only [h1, h2, h3, h4, hs, false_and, if_false]
  rfl

theorem parseMag_showDec {f : Fmt} (d xp xn : Nat) (h : xp = 0 ∨ xn = 0) :
    parseMag f (showDec d xp xn) = some (decOrd f d xp xn) := by
  unfold showDec
  split
  next hx =>
    subst hx
    rw [parseMag_digits (toDigits_ne_nil _ _) (toDigits_all (by decide) (by decide) _),
      ofDigits_toDigits (by decide) (by decide)]
    simp [decOrd]
  next hx =>
    have hxp : xp = 0 := by
      rcases h with h | h
      · exact h
      · exact absurd h hx
    subst hxp
    have hlen : (toDigits 10 (d % 10 ^ xn)).length ≤ xn :=
      toDigits_length_le xn (by omega) _ (Nat.mod_lt _ (Nat.pow_pos (by decide)))
    rw [parseMag_point (toDigits_ne_nil _ _) (toDigits_all (by decide) (by decide) _)
      (all_padZero _ (toDigits_all (by decide) (by decide) _)), ofDigits_append,
      padZero_length hlen, ofDigits_padZero, ofDigits_toDigits (by decide) (by decide),
      ofDigits_toDigits (by decide) (by decide)]
    congr 2
    exact Nat.div_add_mod' d (10 ^ xn)

theorem round_zero {f : Fmt} (hp : 1 ≤ f.p) (d : Nat) (hd : 0 < d) : f.round 0 d = 0 := by
  apply Fmt.round_val f hp hd (Nat.zero_le _)
  simp [Fmt.val_zero]

theorem parseMag_showMag {f : Fmt} (hp : 1 ≤ f.p) {k : Nat} (hk : k < f.inf) :
    parseMag f (showMag f k) = some k := by
  unfold showMag
  rw [if_neg (by omega)]
  split
  next h =>
    subst h
    rw [parseMag_digits (by simp) (by decide)]
    simp [decOrd, ofDigits, digitVal, round_zero hp]
  next h =>
    simp only []
    rw [parseMag_showDec _ _ _ (search_exp 17 1), search_spec hp (by omega)]

theorem decOrd_le {f : Fmt} (m a b : Nat) : decOrd f m a b ≤ f.inf := Fmt.round_le _ _ _

theorem showDec_head (d xp xn : Nat) : ∃ c r, showDec d xp xn = c :: r ∧ isDigit 10 c = true := by
  have key : ∀ n t, ∃ c r, toDigits 10 n ++ t = c :: r ∧ isDigit 10 c = true := by
    intro n t
    have h1 := toDigits_ne_nil 10 n
    have h2 := toDigits_all (b := 10) (by decide) (by decide) n
    match hd : toDigits 10 n with
    | [] => exact absurd hd h1
    | c :: r =>
      rw [hd] at h2
      simp only [List.all_cons, Bool.and_eq_true] at h2
      exact ⟨c, r ++ t, rfl, h2.1⟩
  unfold showDec
  split
  · have := key (d * 10 ^ xp) []
    simpa using this
  · exact key _ _

theorem showMag_head {f : Fmt} {k : Nat} :
    ∃ c r, showMag f k = c :: r ∧ c ≠ '+' ∧ c ≠ '-' := by
  unfold showMag
  split
  · exact ⟨'i', ['n', 'f'], rfl, by decide, by decide⟩
  · split
    · exact ⟨'0', [], rfl, by decide, by decide⟩
    · obtain ⟨c, r, h1, h2⟩ := showDec_head (search f k 17 1).1 (search f k 17 1).2.1
        (search f k 17 1).2.2
      refine ⟨c, r, h1, ?_, ?_⟩
      · intro h; subst h; exact absurd h2 (by decide)
      · intro h; subst h; exact absurd h2 (by decide)

theorem parseMag_inf {f : Fmt} : parseMag f "inf".toList = none := by
  unfold parseMag
  rfl

theorem parseUnsignedFloat_showMag {f : Fmt} (hp : 1 ≤ f.p) (s : Bool) {k : Nat} (hk : k ≤ f.inf) :
    parseUnsignedFloat f s (showMag f k) = some (.num s k hk) := by
  unfold parseUnsignedFloat
  by_cases h : k = f.inf
  · have e : showMag f k = "inf".toList := by unfold showMag; rw [if_pos h]
    rw [e, parseMag_inf]
    simp only []
    have : "inf".toList.map lowerAscii = "inf".toList := by decide
    rw [this]
    simp only [Flt.infinity, h]
    rfl
  · rw [parseMag_showMag hp (by omega)]
    simp [hk]

/-- Printing a float and parsing the text gives the float back. -/
theorem parseFloat_showFloat {f : Fmt} (hp : 1 ≤ f.p) (x : Flt f) :
    parseFloat f (showFloat x) = some x := by
  cases x with
  | nan => rfl
  | num s k h =>
    unfold showFloat
    cases s with
    | true =>
      simp only [if_true]
      exact parseUnsignedFloat_showMag hp true h
    | false =>
      simp only [Bool.false_eq_true, if_false]
      obtain ⟨c, r, h1, h2, h3⟩ := showMag_head (f := f) (k := k)
      have := parseUnsignedFloat_showMag hp false h
      rw [h1] at this ⊢
      unfold parseFloat
      split
      next r' he => exact absurd (List.cons.inj he).1 h3
      next r' he => exact absurd (List.cons.inj he).1 h2
      next => exact this

end Text
end Fl
