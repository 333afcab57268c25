import Verif.Lemmas.Text
import Verif.Props.Decimal
import Verif.Spec.Pedantry
/-!
# Code points, widths, colours, anchors (C11 – C14, C42)
-/
open Fl Fl.Text
namespace GP
open Spec

/-! ## C11 -/

/-- **C11.** The text written for a code point is read back as the same character. -/
theorem C11_round_trip (c : Char) : readCodepoint (codepointDisplay c) = .ok c := by
  unfold readCodepoint codepointDisplay
  rw [parseUnsigned_toDigits (by decide) (by decide) (char_lt c)]
  simp only [Out.ofOption_some, Out.bind_ok]
  rw [(charFromU32_iff _ c).2 rfl]
  rfl

/-- **C11.** The text written consists of the digits 0-9 and A-F, denotes the code point in base 16,
and has no leading zero (but for the single digit of U+0000). -/
theorem C11_canonical (c : Char) :
    (∀ d ∈ codepointDisplay c, d ∈ "0123456789ABCDEF".toList) ∧
    Numeral 16 (codepointDisplay c) c.toNat ∧
    (codepointDisplay c = ['0'] ∨ (codepointDisplay c).head? ≠ some '0') := by
  unfold codepointDisplay
  refine ⟨?_, ?_, ?_⟩
  · intro d hd
    obtain ⟨k, hk, rfl⟩ := toDigits_chars (by decide) (by decide) c.toNat d hd
    have : ∀ k, k < 16 → digitChar k ∈ "0123456789ABCDEF".toList := by decide
    exact this k hk
  · rw [numeral_iff (by decide)]
    exact parseNat_toDigits (by decide) (by decide) _
  · rcases Nat.eq_zero_or_pos c.toNat with h | h
    · left; rw [h]; exact toDigits_small (by decide)
    · right
      obtain ⟨d, r, e, hd⟩ := toDigits_head (b := 16) (by decide) (by decide) _ h
      rw [e]
      simp [hd]

/-- **C11.** A hex text is accepted exactly if it is a base 16 numeral (either case, optional plus
sign) denoting a Unicode scalar value, and then gives that character. -/
theorem C11_accepts (hex : Str) (c : Char) : readCodepoint hex = .ok c ↔ Signed 16 hex c.toNat := by
  unfold readCodepoint
  cases h : parseUnsigned 16 (2 ^ 32) hex with
  | none =>
    simp only [Out.ofOption_none, Out.bind_err, reduceCtorEq, false_iff]
    intro hs
    rw [(parseUnsigned_iff (by decide) _ _ _).2 ⟨hs, char_lt c⟩] at h
    cases h
  | some n =>
    have hn := (parseUnsigned_iff (by decide) _ _ _).1 h
    simp only [Out.ofOption_some, Out.bind_ok]
    constructor
    · intro hc
      cases hf : charFromU32 n with
      | none => rw [hf] at hc; cases hc
      | some d =>
        rw [hf] at hc
        cases hc
        rw [(charFromU32_iff _ _).1 hf]
        exact hn.1
    · intro hs
      have := (parseUnsigned_iff (by decide) _ _ _).2 ⟨hs, char_lt c⟩
      rw [h] at this
      cases this
      rw [(charFromU32_iff _ c).2 rfl]
      rfl

/-- **C11.** Reading a hex text never panics. -/
theorem C11_no_panic (hex : Str) : readCodepoint hex ≠ .panic := by
  unfold readCodepoint
  cases parseUnsigned 16 (2 ^ 32) hex with
  | none => simp
  | some n =>
    simp only [Out.ofOption_some, Out.bind_ok]
    cases charFromU32 n <;> simp

example : codepointDisplay 'é' = "E9".toList := by decide +kernel
example : readCodepoint "+1f600".toList = .ok '😀' := by decide
example : readCodepoint "D800".toList = .err (.input "<unicode> char conversion failed") := by decide

/-! ## C12 -/

/-- **C12.** Every width that fits in 64 bits is read back exactly, whatever the pedantry. -/
theorem C12_round_trip (ped : Pedantry) (n : Nat) (h : n < 2 ^ 64) :
    readWidth ped (toDigits 10 n) = .ok n := by
  unfold readWidth
  rw [parseU64_toDigits h]

theorem shouldMend_iff (p : Pedantry) : p.shouldMend = true ↔ ¬ Strictest p := by
  rcases p with ⟨l, m⟩
  cases l <;> cases m <;> simp [Pedantry.shouldMend, Level.isSfnt, Strictest, OfFontFile]

/-- **C12.** What is accepted: a decimal numeral (optional plus sign) below 2^64, with its value; or
else, if mending is allowed, a text that is a float that is not subnormal, truncated and saturated. -/
theorem C12_accepts (ped : Pedantry) (w : Str) (n : Nat) :
    readWidth ped w = .ok n ↔
      (Signed 10 w n ∧ n < 2 ^ 64) ∨
      ((¬ ∃ m, Signed 10 w m ∧ m < 2 ^ 64) ∧ ¬ Strictest ped ∧
        ∃ f : F32, FloatText b32 w f ∧ f.isSubnormal = false ∧ TruncatesTo f n) := by
  simp only [← C79_float b32_p2, ← shouldMend_iff]
  unfold readWidth
  cases h : parseU64 w with
  | some i =>
    have hi := (parseUnsigned_iff (by decide) _ _ _).1 h
    simp only [Out.ok.injEq]
    constructor
    · rintro rfl; exact Or.inl hi
    · rintro (hs | ⟨hs, _⟩)
      · have := (parseUnsigned_iff (b := 10) (by decide) (2 ^ 64) w n).2 hs
        unfold parseU64 at h
        rw [h] at this
        exact Option.some.inj this
      · exact absurd ⟨i, hi⟩ hs
  | none =>
    have hno : ¬ ∃ m, Signed 10 w m ∧ m < 2 ^ 64 := by
      rintro ⟨m, hm⟩
      have := (parseUnsigned_iff (b := 10) (by decide) (2 ^ 64) w m).2 hm
      unfold parseU64 at h
      rw [h] at this
      cases this
    have hno' : ¬ (Signed 10 w n ∧ n < 2 ^ 64) := fun hh => hno ⟨n, hh⟩
    simp only [hno', hno, false_or, not_false_eq_true, true_and]
    cases hf : parseFloat b32 w with
    | none => simp
    | some f =>
      by_cases hsub : f.isSubnormal = true
      · simp [hsub]
      · by_cases hm : ped.shouldMend = true
        · simp [hsub, hm, toU64_spec]
        · simp [hsub, hm]

/-- **C12.** Mending is refused exactly for the sfnt levels with `Never`. -/
theorem C12_mending (ped : Pedantry) :
    ped.shouldMend = false ↔ (ped.level = .openType ∨ ped.level = .trueType) ∧ ped.mend = .never := by
  rcases ped with ⟨l, m⟩
  cases l <;> cases m <;> decide

/-- **C12.** Everything else is an error; reading a width never panics. -/
theorem C12_no_panic (ped : Pedantry) (w : Str) : readWidth ped w ≠ .panic := by
  unfold readWidth
  cases parseU64 w with
  | some i => simp
  | none =>
    cases parseFloat b32 w with
    | none => simp
    | some f =>
      simp only []
      split
      · simp
      · split <;> simp

example : readWidth {} "512".toList = .ok 512 := by decide
example : readWidth {} "512.75".toList = .ok 512 := by decide +kernel
example : readWidth {} "-1".toList = .ok 0 := by decide +kernel
example : readWidth { level := .openType, mend := .never } "512.75".toList =
    .err (.input "Floating point value given as <advance> width — OpenType `hmtx` / `vmtx` will truncate it") := by decide +kernel

/-! ## C13 -/

/-- **C13.** A colour written as text is parsed back; each component has the same value (`-0`
becomes `0`), and integers are unchanged. -/
theorem C13_round_trip (c : Color) :
    ∃ d, Color.parse c.text = .ok d ∧
      d.r.toF32 = c.r.toF32.normZero ∧ d.g.toF32 = c.g.toF32.normZero ∧
      d.b.toF32 = c.b.toF32.normZero ∧ d.a.toF32 = c.a.toF32.normZero := by
  rw [color_parse_fields (color_text_fields c)]
  simp only [IOF.parse_show_eq, Out.ofOption_some, Out.bind_ok]
  exact ⟨_, rfl, IOF.reread_toF32 _, IOF.reread_toF32 _, IOF.reread_toF32 _, IOF.reread_toF32 _⟩

/-- **C13.** The colour read back is a fixed point: writing and reading it again changes nothing. -/
theorem C13_stable (c d : Color) (h : Color.parse c.text = .ok d) : Color.parse d.text = .ok d := by
  rw [color_parse_fields (color_text_fields c)] at h
  simp only [IOF.parse_show_eq, Out.ofOption_some, Out.bind_ok, Out.ok.injEq] at h
  subst h
  rw [color_parse_fields (color_text_fields _)]
  simp only [IOF.parse_show_eq, Out.ofOption_some, Out.bind_ok, IOF.reread_idem]

example :
    let c : Color := { r := .int 1, g := .float (Flt.ofFrac b32 false 1 2), b := .int 0, a := .float Flt.zero }
    Color.parse c.text = .ok { c with a := .int 0 } := by decide +kernel

/-! ## C14 -/

/-- **C14, exact condition.** A colour text is accepted exactly if its first four comma separated
fields are numbers (without white space); what follows a fourth comma is not looked at. -/
theorem C14_accepts (s : Str) (col : Color) :
    Color.parse s = .ok col ↔ ∃ a b c d, FourFields s a b c d ∧
      IOF.parse a = some col.r ∧ IOF.parse b = some col.g ∧ IOF.parse c = some col.b ∧
      IOF.parse d = some col.a := by
  constructor
  · intro h
    unfold Color.parse at h
    split at h
    next a b c d l e =>
      have hf := (splitOn_four s a b c d).1 ⟨l, e⟩
      refine ⟨a, b, c, d, hf, ?_⟩
      cases ha : IOF.parse a with
      | none => simp [ha] at h
      | some r =>
        cases hb : IOF.parse b with
        | none => simp [ha, hb] at h
        | some g =>
          cases hc : IOF.parse c with
          | none => simp [ha, hb, hc] at h
          | some bl =>
            cases hd : IOF.parse d with
            | none => simp [ha, hb, hc, hd] at h
            | some al =>
              simp [ha, hb, hc, hd] at h
              subst h
              exact ⟨rfl, rfl, rfl, rfl⟩
    next => cases h
  · rintro ⟨a, b, c, d, hf, ha, hb, hc, hd⟩
    rw [color_parse_fields hf, ha, hb, hc, hd]
    rfl

/-- **C14.** The only error is the colour error; parsing a colour never panics. -/
theorem C14_error (s : Str) : (∃ col, Color.parse s = .ok col) ∨ Color.parse s = .err .colorNotRGBA := by
  unfold Color.parse
  split
  next a b c d l e =>
    cases IOF.parse a with
    | none => simp
    | some r =>
      cases IOF.parse b with
      | none => simp
      | some g =>
        cases IOF.parse c with
        | none => simp
        | some bl =>
          cases IOF.parse d with
          | none => simp
          | some al => simp
  next => exact Or.inr rfl

/-- **C14 is false of the code** in both directions: `1,1,1,1,x` is accepted, and `1, 0, 0, 1` is
rejected. -/
theorem C14_false :
    (∃ s col, Color.parse s = .ok col ∧ ¬ FourNumbers s) ∧
    (∃ s, FourNumbers s ∧ Color.parse s = .err .colorNotRGBA) := by
  have num : ∀ s y, IOF.parse s = some y → IsNumber s := fun s y h => (C79_accepted s).1 ⟨y, h⟩
  have h0 : IsNumber ['0'] := num _ (.int 0) (by decide +kernel)
  have h1 : IsNumber ['1'] := num _ (.int 1) (by decide +kernel)
  refine ⟨⟨"1,1,1,1,x".toList, { r := .int 1, g := .int 1, b := .int 1, a := .int 1 }, by decide +kernel, ?_⟩,
    "1, 0, 0, 1".toList, ⟨['1'], [' ', '0'], [' ', '0'], [' ', '1'], ⟨by decide, by decide, by decide, by decide, rfl⟩, ?_⟩,
    by decide +kernel⟩
  · rintro ⟨a, b, c, d, ⟨ha, hb, hc, hd, h⟩, -⟩
    have := congrArg (List.count ',') h
    simp only [List.count_append, List.count_cons_self, List.count_eq_zero_of_not_mem ha, List.count_eq_zero_of_not_mem hb,
      List.count_eq_zero_of_not_mem hc, List.count_eq_zero_of_not_mem hd] at this
    exact absurd this (by decide)
  · intro x hx
    simp only [List.mem_cons, List.not_mem_nil, or_false] at hx
    rcases hx with rfl | rfl | rfl | rfl
    · exact ⟨[], ['1'], [], rfl, by decide, h1⟩
    · exact ⟨[' '], ['0'], [], rfl, by decide, h0⟩
    · exact ⟨[' '], ['0'], [], rfl, by decide, h0⟩
    · exact ⟨[' '], ['1'], [], rfl, by decide, h1⟩

/-- **C14, the part that holds.** Exactly four comma separated numbers without white space are
accepted, and fewer than four fields are rejected.  Missing: white space, and extra fields. -/
theorem C14_partial (s : Str) :
    (∀ a b c d, OnlyFour s a b c d → (∀ x ∈ [a, b, c, d], IsNumber x) → ∃ col, Color.parse s = .ok col) ∧
    (s.count ',' < 3 → Color.parse s = .err .colorNotRGBA) := by
  constructor
  · intro a b c d e h
    obtain ⟨r, e1⟩ := (C79_accepted a).2 (h a (by simp))
    obtain ⟨g, e2⟩ := (C79_accepted b).2 (h b (by simp))
    obtain ⟨bl, e3⟩ := (C79_accepted c).2 (h c (by simp))
    obtain ⟨al, e4⟩ := (C79_accepted d).2 (h d (by simp))
    obtain ⟨ha, hb, hc, hd, hs⟩ := e
    exact ⟨⟨r, g, bl, al⟩, (C14_accepts s _).2 ⟨a, b, c, d, ⟨ha, hb, hc, hd, [], by simpa using hs, Or.inl rfl⟩, e1, e2, e3, e4⟩⟩
  · intro h
    rcases C14_error s with ⟨col, hc⟩ | hc
    · exfalso
      obtain ⟨a, b, c, d, ⟨-, -, -, -, rest, rfl, -⟩, -⟩ := (C14_accepts s col).1 hc
      simp only [List.count_append, List.count_cons_self] at h
      omega
    · exact hc

/-! ## C42 -/

/-- **C42.** An anchor is accepted exactly if mending is `Always` or both coordinates are integers;
otherwise the pedantic parse error is returned. -/
theorem C42_accepted_iff (ga : GlifAnchor) (ped : Pedantry) :
    ((∃ a, Anchor.fromGlif ga ped = .ok a) ↔
      ped.mend = .always ∨ ((∃ i h, ga.x = .int i h) ∧ ∃ i h, ga.y = .int i h)) ∧
    ((¬ ∃ a, Anchor.fromGlif ga ped = .ok a) → Anchor.fromGlif ga ped = .err .pedanticXmlParse) := by
  rcases ga with ⟨x, y, cls⟩
  rcases ped with ⟨l, m⟩
  unfold Anchor.fromGlif
  cases m <;> cases x <;> cases y <;> simp_all [IOF.isInt]

/-- **C42.** The anchor made: the class is that of the file anchor, coordinates are rounded to the
nearest integer exactly for the OpenType and TrueType levels, and the anchor is a mark exactly if
its class starts with an underscore. -/
theorem C42_result (ga : GlifAnchor) (ped : Pedantry) (a : Anchor)
    (h : Anchor.fromGlif ga ped = .ok a) :
    a.cls = ga.cls ∧
    ((ped.level = .openType ∨ ped.level = .trueType) →
      RoundsTo ga.x.toF32 a.x ∧ RoundsTo ga.y.toF32 a.y) ∧
    (¬ (ped.level = .openType ∨ ped.level = .trueType) → a.x = ga.x.toF32 ∧ a.y = ga.y.toF32) ∧
    (a.atype = .mark ↔ ∃ r, ga.cls = some ('_' :: r)) := by
  unfold Anchor.fromGlif at h
  split at h
  · cases h
  · cases h
    refine ⟨rfl, ?_, ?_, ?_⟩
    · rintro (hl | hl) <;> simp [hl, Level.maybeRound, Level.isSfnt, roundInt_spec]
    · intro hl
      have : ped.level.isSfnt = false := by
        unfold Level.isSfnt
        cases hlev : ped.level <;> simp_all
      simp [Level.maybeRound, this]
    · cases hc : ga.cls with
      | none => simp [AnchorType.ofClass]
      | some s =>
        cases s with
        | nil => simp [AnchorType.ofClass]
        | cons c s =>
          simp only [AnchorType.ofClass, List.head?_cons, Option.some.injEq, List.cons.injEq]
          by_cases hu : c = '_'
          · simp [hu]
          · simp [hu]

/-- **C42.** The class read from a `name` attribute: the name if it is non-empty and has no control
character; otherwise none. -/
theorem C42_class (n : Str) :
    (n ≠ [] ∧ (∀ c ∈ n, ¬ Control c) → anchorClass (some n) = some n) ∧
    (¬ (n ≠ [] ∧ ∀ c ∈ n, ¬ Control c) → anchorClass (some n) = none) ∧
    anchorClass none = none := by
  unfold anchorClass
  refine ⟨?_, ?_, rfl⟩
  · rintro ⟨h1, h2⟩
    have h : glifString n = .ok n := by
      unfold glifString
      rw [findPosition_none.2]
      intro c hc
      rw [← Bool.not_eq_true, isControl_iff]
      exact h2 c hc
    have h' : ¬ n.length = 0 := by simpa using h1
    simp only [glifStringLenOne, h, Out.bind_ok, if_neg h']
  · intro h
    simp only [glifStringLenOne]
    cases hf : findPosition isControl n with
    | some ic =>
      have : glifString n = .err (.hasControlCharacter ic.1 ic.2) := by unfold glifString; rw [hf]
      simp [this]
    | none =>
      have hg : glifString n = .ok n := by unfold glifString; rw [hf]
      have hn := findPosition_none.1 hf
      have : n = [] := by
        apply Decidable.byContradiction
        intro hne
        apply h
        refine ⟨hne, fun c hc hcon => ?_⟩
        have := hn c hc
        rw [(isControl_iff c).2 hcon] at this
        cases this
      subst this
      rfl

example : Anchor.fromGlif { x := .float (Flt.ofFrac b32 false 5 2), y := .int 3, cls := some "_top".toList }
    { level := .openType } =
    .ok { x := Flt.ofInt b32 3, y := Flt.ofInt b32 3, cls := some "_top".toList, atype := .mark } := by
  decide +kernel
example : Anchor.fromGlif { x := .float (Flt.ofFrac b32 false 5 2), y := .int 3, cls := none }
    { mend := .never } = .err .pedanticXmlParse := by decide +kernel

end GP
