import Verif.Lemmas.Strings
/-!
# Checked strings and file names (C15 – C19)
-/
namespace GP
open Spec

/-! ## C15 -/

/-- **C15.** A checked string can be made exactly from a text without control characters, and holds
that text. -/
theorem C15_accepts (s t : Str) : glifString s = .ok t ↔ t = s ∧ ∀ c ∈ s, ¬ Control c := by
  unfold glifString
  cases h : findPosition isControl s with
  | none =>
    have := findPosition_none.1 h
    simp only [Out.ok.injEq]
    refine ⟨fun e => ⟨e.symm, fun c hc hcon => ?_⟩, fun e => e.1.symm⟩
    have h1 := this c hc
    rw [(isControl_iff c).2 hcon] at h1
    cases h1
  | some ic =>
    obtain ⟨i, c⟩ := ic
    obtain ⟨p, r, rfl, _, hc, _⟩ := findPosition_some h
    simp only [reduceCtorEq, false_iff]
    rintro ⟨_, h2⟩
    exact h2 c (by simp) ((isControl_iff c).1 hc)

/-- **C15.** The index reported is the position of the first control character, and that character
is reported. -/
theorem C15_index (s : Str) (i : Nat) (c : Char) :
    glifString s = .err (.hasControlCharacter i c) ↔
      s[i]? = some c ∧ Control c ∧ ∀ j d, j < i → s[j]? = some d → ¬ Control d := by
  unfold glifString
  constructor
  · intro h
    cases hf : findPosition isControl s with
    | none => rw [hf] at h; cases h
    | some ic =>
      obtain ⟨i', c'⟩ := ic
      rw [hf] at h
      simp only [Out.err.injEq, StrErr.hasControlCharacter.injEq] at h
      obtain ⟨rfl, rfl⟩ := h
      obtain ⟨p, r, rfl, hpl, hc, hp⟩ := findPosition_some hf
      refine ⟨by simp [← hpl], (isControl_iff _).1 hc, ?_⟩
      intro j d hj hd hcon
      rw [List.getElem?_append_left (by omega)] at hd
      have h1 := hp d (List.mem_of_getElem? hd)
      rw [(isControl_iff d).2 hcon] at h1
      cases h1
  · rintro ⟨h1, h2, h3⟩
    obtain ⟨hi, e⟩ := List.getElem?_eq_some_iff.1 h1
    have hs : s = s.take i ++ c :: s.drop (i + 1) := by
      rw [← e, List.getElem_cons_drop, List.take_append_drop]
    have hf := findPosition_append (f := isControl) (p := s.take i) (r := s.drop (i + 1)) (c := c)
      (by
        intro d hd
        obtain ⟨j, hj⟩ := List.mem_iff_getElem?.1 hd
        have hji : j < i := by
          rcases Nat.lt_or_ge j i with h | h
          · exact h
          · rw [List.getElem?_eq_none (by simp; omega)] at hj; cases hj
        rw [List.getElem?_take, if_pos hji] at hj
        have := h3 j d hji hj
        rw [← Bool.not_eq_true, isControl_iff]
        exact this)
      ((isControl_iff c).2 h2)
    rw [← hs] at hf
    rw [hf]
    simp
    omega

/-- **C15.** The non-empty variant additionally refuses the empty text, and reports the same errors
otherwise. -/
theorem C15_non_empty (s t : Str) :
    (glifStringLenOne s = .ok t ↔ t = s ∧ s ≠ [] ∧ ∀ c ∈ s, ¬ Control c) ∧
    (glifStringLenOne s = .err .lenZero ↔ s = []) := by
  unfold glifStringLenOne
  cases h : glifString s with
  | ok u =>
    have := (C15_accepts s u).1 h
    obtain ⟨rfl, h2⟩ := this
    cases u with
    | nil => simp
    | cons a u =>
      simp only [Out.bind_ok]
      simp only [List.length_cons, Nat.add_eq_zero_iff, Nat.one_ne_zero, and_false, if_false]
      simp
      refine ⟨fun e => ⟨e.symm, ?_⟩, fun e => e.1.symm⟩
      simpa using h2
  | err e =>
    simp only [Out.bind_err]
    unfold glifString at h
    cases hf : findPosition isControl s with
    | none => rw [hf] at h; cases h
    | some ic =>
      obtain ⟨i, c⟩ := ic
      rw [hf] at h
      simp only [Out.err.injEq] at h
      subst h
      obtain ⟨p, r, rfl, _, hc, _⟩ := findPosition_some hf
      simp only [reduceCtorEq, false_iff, Out.err.injEq]
      refine ⟨?_, by simp⟩
      rintro ⟨_, _, h3⟩
      exact h3 c (by simp) ((isControl_iff c).1 hc)
  | panic =>
    unfold glifString at h
    split at h <;> cases h

example : glifString "a b".toList = .ok "a b".toList := by decide
example : glifString "ab\ncd\n".toList = .err (.hasControlCharacter 2 '\n') := by decide

/-! ## C16 -/

theorem utf8Len_eq (c : Char) : utf8Len c = c.utf8Size := by
  have h1 : c.val ≤ UInt32.ofNatLT 0x7F (of_decide_eq_true rfl) ↔ c.toNat < 0x80 := by
    rw [UInt32.le_iff_toNat_le]; exact Nat.lt_succ_iff.symm
  have h2 : c.val ≤ UInt32.ofNatLT 0x7FF (of_decide_eq_true rfl) ↔ c.toNat < 0x800 := by
    rw [UInt32.le_iff_toNat_le]; exact Nat.lt_succ_iff.symm
  have h3 : c.val ≤ UInt32.ofNatLT 0xFFFF (of_decide_eq_true rfl) ↔ c.toNat < 0x10000 := by
    rw [UInt32.le_iff_toNat_le]; exact Nat.lt_succ_iff.symm
  unfold utf8Len Char.utf8Size
  simp only [h1, h2, h3]

/-- **C16.** Of a text, `String::remove` takes the character before which there are as many bytes of UTF-8 as
the index says; if there is no such character it panics. -/
theorem C16_bytes (s t : Str) (i : Nat) :
    removeByte s i = some t ↔ ∃ a c b, s = a ++ c :: b ∧ t = a ++ b ∧ (a.map Char.utf8Size).sum = i := by
  induction s generalizing t i with
  | nil => exact ⟨fun h => (nomatch h), fun ⟨a, c, b, h, _⟩ => by simp at h⟩
  | cons d s ih =>
    have hd : 1 ≤ d.utf8Size := utf8Len_eq d ▸ utf8Len_pos d
    cases i with
    | zero =>
      rw [removeByte]
      constructor
      · intro h
        exact ⟨[], d, s, rfl, (Option.some.inj h).symm, rfl⟩
      · rintro ⟨a, c, b, h1, h2, h3⟩
        cases a with
        | nil => cases h1; rw [h2]; rfl
        | cons x a =>
          cases h1
          simp at h3
          omega
    | succ n =>
      rw [removeByte, utf8Len_eq]
      constructor
      · intro h
        split at h
        next hle =>
          obtain ⟨u, hu, rfl⟩ := Option.map_eq_some_iff.1 h
          obtain ⟨a, c, b, rfl, rfl, h3⟩ := (ih u _).1 hu
          exact ⟨d :: a, c, b, rfl, rfl, by simp; omega⟩
        next => cases h
      · rintro ⟨a, c, b, h1, h2, h3⟩
        cases a with
        | nil => simp at h3
        | cons x a =>
          cases h1
          simp only [List.map_cons, List.sum_cons] at h3
          rw [if_pos (by omega), (ih (a ++ b) _).2 ⟨a, c, b, rfl, rfl, by omega⟩, h2]
          rfl

example : removeByte "é€x".toList 5 = some "é€".toList := by decide
example : removeByte "é€x".toList 3 = none := by decide

/-- **C16, exact condition.** Sanitising panics exactly if some control character comes after a
character outside ASCII. -/
theorem C16_panics_iff (s : Str) : toGlifString s = .panic ↔ ControlAfterNonAscii s := by
  constructor
  · intro h
    apply Decidable.byContradiction (dec := Classical.propDecidable _)
    intro hn
    unfold toGlifString at h
    rw [toGlifStringLoop_ok _ _ (Nat.le_refl _) hn] at h
    cases h
  · exact toGlifStringLoop_panics _ _

/-- **C16 is false of the code.** `é` followed by a line feed makes it panic. -/
theorem C16_false : ∃ s : Str, toGlifString s ≠ .ok (cleaned s) :=
  ⟨['é', '\n'], by decide⟩

/-- **C16, the part that holds.** In all other cases the result is the text without its control
characters, the remaining characters in order.  Missing: texts with a control character after a
non-ASCII one, on which the code panics (`C16_panics_iff`). -/
theorem C16_partial (s : Str) (h : ¬ ControlAfterNonAscii s) : toGlifString s = .ok (cleaned s) :=
  toGlifStringLoop_ok _ _ (Nat.le_refl _) h

/-- **C16.** Whatever is returned is the cleaned text, and passes the check. -/
theorem C16_result (s t : Str) (h : toGlifString s = .ok t) :
    t = cleaned s ∧ glifString t = .ok t := by
  have hn : ¬ ControlAfterNonAscii s := fun hb => by
    rw [(C16_panics_iff s).2 hb] at h; cases h
  rw [C16_partial s hn] at h
  cases h
  refine ⟨rfl, (C15_accepts _ _).2 ⟨rfl, ?_⟩⟩
  intro c hc
  unfold cleaned at hc
  simpa using (List.mem_filter.1 hc).2

example : ¬ ControlAfterNonAscii "a\nb\té".toList := by
  rw [← C16_panics_iff]; decide
example : toGlifString "a\nb\té".toList = .ok "abé".toList := by decide

/-! ## C17 -/

/-- **C17.** Different names get different file names (with or without extension). -/
theorem C17_injective (ext : Bool) (a b : Str) (h : nameToFilename a ext = nameToFilename b ext) :
    a = b := by
  rw [nameToFilename_eq, nameToFilename_eq] at h
  exact enc_inj a b (List.append_cancel_right h)

example : nameToFilename "AaZ".toList true = "A_aZ.glif".toList := by decide
example : nameToFilename "A_a".toList true ≠ nameToFilename "Aa".toList true := by decide

/-! ## C18 -/

/-- **C18 is false of the code.** `Z` and `z` get file names that differ only in case (the range of
letters excludes `Z`); so do `A` and `a_`. -/
theorem C18_false :
    ∃ a b : Str, a ≠ b ∧ SameIgnoringCase (nameToFilename a true) (nameToFilename b true) ∧
    ∃ c d : Str, c ≠ d ∧ 'Z' ∉ c ∧ 'Z' ∉ d ∧
      SameIgnoringCase (nameToFilename c true) (nameToFilename d true) :=
  ⟨['Z'], ['z'], by decide, by unfold SameIgnoringCase; decide, ['A'], ['a', '_'], by decide,
    by decide, by decide, by unfold SameIgnoringCase; decide⟩

/-- **C18, the part that holds.** Two different names with no `Z` and with no `a`–`y` directly before
an underscore get file names that differ even if ASCII case is ignored.  Missing: the other names. -/
theorem C18_partial (ext : Bool) (a b : Str) (ha : CaseSafe a) (hb : CaseSafe b) (h : a ≠ b) :
    ¬ SameIgnoringCase (nameToFilename a ext) (nameToFilename b ext) := by
  intro hs
  unfold SameIgnoringCase at hs
  rw [nameToFilename_eq, nameToFilename_eq, List.map_append, List.map_append] at hs
  exact h (enc_lower_inj a b ha hb (List.append_cancel_right hs))

/-- Glyph names such as `A.sc`, `a.sc`, `a`, `A`, `AE_T`, `_z` meet the condition. -/
example : CaseSafe "A.sc".toList ∧ CaseSafe "a.sc".toList ∧ CaseSafe "AE_T".toList := by
  refine ⟨⟨by decide, ?_⟩, ⟨by decide, ?_⟩, ⟨by decide, ?_⟩⟩ <;>
  · intro i c h1 h2
    match i with
    | 0 => simp at h1 h2; try (subst h1; decide)
    | 1 => simp at h1 h2; try (subst h1; decide)
    | 2 => simp at h1 h2; try (subst h1; decide)
    | 3 => simp at h1 h2
    | i + 4 => simp at h1

/-! ## C19 -/

/-- **C19.** A file name is reported sane exactly if its last part is the file name derived from the
glyph name; without file name, or if the path names a directory, an error is returned. -/
theorem C19_sane (name : Str) (p : Path) :
    (filenameIsSane name (some p) = .ok true ↔ p.fileName = some (nameToFilename name true)) ∧
    (filenameIsSane name (some p) = .ok false ↔
      ∃ n, p.fileName = some n ∧ n ≠ nameToFilename name true) ∧
    (filenameIsSane name (some p) = .err .filenameInsane ↔ p.fileName = none) ∧
    filenameIsSane name none = .err .filenameInsane := by
  unfold filenameIsSane
  cases h : p.fileName with
  | none => simp [h]
  | some n =>
    simp [h]
    grind

/-- **C19.** Two glyphs whose sane file names are equal have the same name. -/
theorem C19_same_file (a b : Str) (p : Path) (ha : filenameIsSane a (some p) = .ok true)
    (hb : filenameIsSane b (some p) = .ok true) : a = b := by
  have h1 := (C19_sane a p).1.1 ha
  have h2 := (C19_sane b p).1.1 hb
  rw [h1] at h2
  exact C17_injective true a b (Option.some.inj h2)

theorem ofStr_filename {base : Str} (h : '/' ∉ base) :
    Path.ofStr (nameToFilename base true) = { abs := false, parts := [nameToFilename base true] } := by
  have hs := slash_enc h
  unfold Path.ofStr
  rw [splitOn_none hs]
  rw [nameToFilename_eq] at hs ⊢
  generalize base.flatMap enc = e at *
  cases e with
  | nil => decide
  | cons c e =>
    have : c ≠ '/' := fun hc => hs (by simp [hc])
    simp [this]

/-- **C19, the part that holds.** A component whose base has no slash is looked up in the directory
of the glyph that refers to it, under the file name derived from the base, and that file name is
sane.  Missing: bases with a slash (`C19_false`). -/
theorem C19_partial (g : Path) (base : Str) (hb : '/' ∉ base) (n : Str) (hg : g.fileName = some n) :
    componentFile g base = { g with parts := g.parts.dropLast ++ [nameToFilename base true] } ∧
    filenameIsSane base (some (componentFile g base)) = .ok true := by
  have e : componentFile g base = { g with parts := g.parts.dropLast ++ [nameToFilename base true] } := by
    unfold componentFile Path.setFileName
    rw [hg, ofStr_filename hb]
    simp [Path.push]
  refine ⟨e, ?_⟩
  rw [(C19_sane base _).1, e]
  unfold Path.fileName
  simp only [List.getLast?_append, List.getLast?_singleton, Option.some_or]
  rw [if_neg]
  rw [nameToFilename_eq]
  intro h
  have := congrArg List.length h
  simp at this

/-- **C19 is false of the code for bases with a slash**: the base `/etc/a` leads out of the directory
of the glyph. -/
theorem C19_false : ∃ (g : Path) (base : Str), g.fileName.isSome = true ∧
    (componentFile g base).parts.dropLast ≠ g.parts.dropLast :=
  ⟨{ parts := ["glyphs".toList, "b.glif".toList] }, "/etc/a".toList, by decide, by decide⟩

example : componentFile { parts := ["glyphs".toList, "Aacute.glif".toList] } "A".toList =
    { parts := ["glyphs".toList, "A_.glif".toList] } := by decide

end GP
