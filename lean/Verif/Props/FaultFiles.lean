import Verif.Props.Faults
import Verif.Props.Grammar
/-!
# C104 for files
-/
open Fl Fl.Text
namespace GP
open Spec
variable {PD D : Type}

/-- **C104** for texts: a text is refused because it spells no document, or for the first fault of the document it spells. -/
theorem C104_text (mid : IOF → IOF → IOF) (pio : PlistIO D) (lay : XmlText.Layout) (ped : Pedantry) (t : Str) (x : GErr) :
    readText (PD := PD) mid pio (XmlText.io lay) ped t = .err x ↔
      ((∀ e, ¬ SpellsDoc e t) ∧ x = .xmlParse) ∨
      ∃ e, SpellsDoc e t ∧ ((e.name ≠ "glyph" ∧ x = .input "Root element not <glyph>") ∨
        (e.name = "glyph" ∧ FirstFault (requirements ped e) x)) := by
  unfold readText
  rw [show (XmlText.io lay).parse t = XmlText.parse t from rfl]
  cases hp : XmlText.parse t with
  | none =>
    have hn : ∀ e, ¬ SpellsDoc e t := fun e h => (nomatch hp.symm.trans ((C140_exact e t).2 h))
    constructor
    · intro h; cases h; exact .inl ⟨hn, rfl⟩
    · rintro (⟨-, rfl⟩ | ⟨e, he, -⟩)
      · rfl
      · exact absurd he (hn e)
  | some e =>
    have he := (C140_exact e t).1 hp
    rw [Out.ofOption_some, Out.bind_ok, C104_first mid pio ped e x]
    constructor
    · exact fun h => .inr ⟨e, he, h⟩
    · rintro (⟨hn, -⟩ | ⟨e', he', h⟩)
      · exact absurd he (hn e)
      · rw [(C140_exact e' t).2 he', Option.some.injEq] at hp
        rw [← hp]; exact h

/-- **C104** for files: a file is refused because it cannot be read, or because its text is refused. -/
theorem C104_file (mid : IOF → IOF → IOF) (pio : PlistIO D) (lay : XmlText.Layout) (ped : Pedantry) (d : Disk) (f : Path) (x : GErr) :
    readFile (PD := PD) mid pio (XmlText.io lay) d ped f = .err x ↔
      (d.read f = none ∧ x = .fileIo) ∨
      ∃ t, d.read f = some t ∧ (((∀ e, ¬ SpellsDoc e t) ∧ x = .xmlParse) ∨
        ∃ e, SpellsDoc e t ∧ ((e.name ≠ "glyph" ∧ x = .input "Root element not <glyph>") ∨
          (e.name = "glyph" ∧ FirstFault (requirements ped e) x))) := by
  unfold readFile readFromFilename Disk.files
  cases hd : d.read f with
  | none =>
    constructor
    · intro h; cases h; exact .inl ⟨rfl, rfl⟩
    · rintro (⟨-, rfl⟩ | ⟨t, ht, -⟩)
      · rfl
      · cases ht
  | some t =>
    rw [Option.map_some, Out.ofOption_some, Out.bind_ok]
    have key := C104_text (PD := PD) mid pio lay ped t x
    unfold readText at key
    refine Iff.trans ?_ (key.trans ⟨fun h => .inr ⟨t, rfl, h⟩, ?_⟩)
    · cases (XmlText.io lay).parse t with
      | none => exact Iff.rfl
      | some root =>
        simp only [Out.ofOption_some, Out.bind_ok]
        match (readGlif mid pio ped root : R (Glif PD D)) with
        | .err e => exact Iff.rfl
        | .panic => exact Iff.rfl
        | .ok g => exact ⟨fun h => (nomatch h), fun h => (nomatch h)⟩
    · rintro (⟨h, -⟩ | ⟨t', h, h'⟩)
      · cases h
      · cases h; exact h'

/-- A text that spells no document, and one that spells a document without a glyph. -/
example (mid : IOF → IOF → IOF) (pio : PlistIO D) (lay : XmlText.Layout) :
    readText (PD := PD) mid pio (XmlText.io lay) {} "<glyph".toList = .err .xmlParse ∧
      readText (PD := PD) mid pio (XmlText.io lay) {} "<glyf/>".toList = .err (.input "Root element not <glyph>") := by
  refine ⟨(C104_text ..).2 (.inl ⟨fun e h => ?_, rfl⟩), (C104_text ..).2 (.inr ⟨{ name := "glyf" }, ?_, .inl ⟨by decide, rfl⟩⟩)⟩
  · have := (C140_exact e _).2 h
    exact absurd (this ▸ (by decide +kernel : (XmlText.parse "<glyph".toList).isNone = true)) (by simp)
  · refine (C140_exact _ _).1 ?_
    have h : (match XmlText.parse "<glyf/>".toList with | some e => some (e.name, e.attrs, e.children.length) | none => none) =
      some ("glyf", [], 0) := by decide +kernel
    revert h
    cases XmlText.parse "<glyf/>".toList with
    | none => intro h; cases h
    | some e =>
      obtain ⟨n, as, cs⟩ := e
      intro h
      simp only [Option.some.injEq, Prod.mk.injEq, List.length_eq_zero_iff] at h
      obtain ⟨rfl, rfl, rfl⟩ := h
      rfl

end GP
