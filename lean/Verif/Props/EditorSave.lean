import Verif.Spec.EditorSave
import Verif.Props.Mfek
import Verif.Props.Rewriting
/-!
# C145: opening a file in the editor and saving it
-/
open Fl Fl.Text
namespace GP
open Spec Plist
variable {PD D L : Type}

/-- No outline and an outline without contours are written the same. -/
theorem glifXml_outline (pio : PlistIO D) (g : Glif PD D) :
    glifXml pio ({ g with outline := some (g.outline.getD []) } : Glif PD D) = glifXml pio g := by
  cases h : g.outline with
  | none => simp only [glifXml, h, Option.getD_none]; rfl
  | some o => simp only [glifXml, h, Option.getD_some]

/-- **C145**, as far as it holds: what the editor saves without a change is what is saved of the glyph without its lib, for any glyph and any printer. -/
theorem C145_partial (pio : PlistIO D) (xml : XmlIO) (g : Glif PD D) :
    ∃ g₂ : Glif PD D, (MGlif.ofGlif g).toGlif = .ok g₂ ∧
      writeText pio xml g₂ = writeText pio xml ({ g with lib := .none } : Glif PD D) := by
  refine ⟨_, C47_exact g, ?_⟩
  have := glifXml_outline pio ({ g with lib := .none } : Glif PD D)
  unfold writeText
  exact congrArg (· >>= _) this

/-- **C145.** A file with lines and cubic curves that was opened in the editor can be saved there; everything comes back as if it
was saved without the editor, but the lib, of which nothing comes back. -/
theorem C145_reopened (mid : IOF → IOF → IOF) (pio : PlistIO D) (lay : XmlText.Layout) (hy : Lays lay) (ped : Pedantry) (t : Str) (g : Glif PD D)
    (h : readText mid pio (XmlText.io lay) ped t = .ok g) (hq : ∀ o, g.outline = some o → ∀ c ∈ o, Cubic c) :
    ∃ g₂ g' : Glif PD D, (MGlif.ofGlif g).toGlif = .ok g₂ ∧
      (∃ s, writeText pio (XmlText.io lay) g₂ = .ok s ∧ readText mid pio (XmlText.io lay) {} s = .ok g') ∧
      Resaved (spoken ({ g with lib := .none } : Glif PD D)) g' ∧ g'.lib = .none := by
  obtain ⟨hs, hc⟩ := read_saveable h hq
  obtain ⟨g₂, h2, hw2⟩ := C145_partial pio (XmlText.io lay) g
  obtain ⟨s, g', hw, hr, hres⟩ := C97_resaved mid pio lay hy ({ g with lib := .none } : Glif PD D) hs (fun c h => hc c (hasChar_lib g.lib h))
    ⟨fun d h => (nomatch h), fun e h => (nomatch h)⟩
  exact ⟨g₂, g', h2, ⟨s, hw2.trans hw, hr⟩, hres, hres.lib⟩

/-- **C145.** Exactly the files without a lib are saved as they are saved without the editor. -/
theorem C145_exact (mid : IOF → IOF → IOF) {lio : LeafIO L} (hl : LeafLaws lio) (lay lay' : XmlText.Layout) (hy : Lays lay) (hy' : Lays lay')
    (ped : Pedantry) (t : Str) (g : Glif PD (Dict L)) (h : readText mid (io lio lay) (XmlText.io lay') ped t = .ok g)
    (hq : ∀ o, g.outline = some o → ∀ c ∈ o, Cubic c) :
    SavesTheSame (io lio lay) (XmlText.io lay') g ↔ g.lib = .none := by
  obtain ⟨g₂, g', h2, ⟨s, hw, hr⟩, -, hn⟩ := C145_reopened mid (io lio lay) lay' hy' ped t g h hq
  obtain ⟨k, ⟨s', hw', hr'⟩, hcase⟩ := C142_partial mid hl lay lay' hy hy' ped t g h hq
  constructor
  · rintro ⟨u, v, hu, hv, huv⟩
    rw [h2] at hv; cases hv
    rw [hw] at huv; cases huv
    rw [hw'] at hu; cases hu
    rw [hr'] at hr; cases hr
    rcases hcase with ⟨h, -⟩ | ⟨d, d', -, -, -, hres⟩
    · exact h
    · have := hres.lib.symm.trans hn
      cases this
  · intro hn
    have e : ({ g with lib := .none } : Glif PD (Dict L)) = g := by rw [← hn]
    obtain ⟨g₃, h3, hw3⟩ := C145_partial (io lio lay) (XmlText.io lay') g
    rw [e, hw'] at hw3
    exact ⟨s', g₃, hw', h3, hw3⟩

/-- A file that is saved from the editor is replaced by one that is alike. -/
theorem editor_alike (mid : IOF → IOF → IOF) (pio : PlistIO D) (lay : XmlText.Layout) (hy : Lays lay) {d : Disk} {p : Path} {g : Glif PD D}
    (hr : readFile mid pio (XmlText.io lay) d {} p = .ok g) (hg : Gentle g) :
    ∃ s, ∃ g₂ : Glif PD D, (MGlif.ofGlif g).toGlif = .ok g₂ ∧ writeText pio (XmlText.io lay) g₂ = .ok s ∧
      FilesAlike PD mid pio (d.files (XmlText.io lay)) ((d.write p s).files (XmlText.io lay)) ∧
      ∀ f, ∀ k : Glif PD D, Holds PD mid pio (d.files (XmlText.io lay)) f k → Gentle k →
        ∃ k', Holds PD mid pio ((d.write p s).files (XmlText.io lay)) f k' ∧ Gentle k' := by
  obtain ⟨g0, h0, rfl⟩ := readFile_atFile hr
  obtain ⟨t, ht, hrt⟩ := holds_text.1 h0
  have hg := gentle_atFile.1 hg
  obtain ⟨root, -, hrd⟩ := read_document hrt
  obtain ⟨g₁, g', h1, ⟨s, hw, hr'⟩, hres, -⟩ := C145_reopened mid pio lay hy {} t g0 hrt fun o ho c hc => (hg.contours o ho c hc).1
  obtain ⟨g₂, h2, hw2⟩ := C145_partial pio (XmlText.io lay) (atFile p g0)
  obtain ⟨g₃, h3, hw3⟩ := C145_partial pio (XmlText.io lay) g0
  rw [h1] at h3; cases h3
  have ha := writeText_atFile pio (XmlText.io lay) p ({ g0 with lib := .none } : Glif PD D)
  obtain ⟨a, b⟩ := resaved_alike mid hrd hg hres
  exact ⟨s, g₂, h2, hw2.trans (ha.trans (hw3.symm.trans hw)), write_alike ht hrt hr' a b⟩

/-- **C145.** Files of a font are opened and saved, with the editor or without it, in any order and as often as one likes.  Then
every file is read with the same outcome as before, the contours draw the same, and so do those of the flattened glyph. -/
theorem C145_alike (mid : IOF → IOF → IOF) {lio : LeafIO L} (hl : LeafLaws lio) (lay lay' : XmlText.Layout) (hy : Lays lay) (hy' : Lays lay')
    {d d' : Disk} (h : Relation.ReflTransGen (fun d d' => OpenedAndSaved (PD := PD) mid (io lio lay) (XmlText.io lay') Gentle d d' ∨
      OpenedInEditorAndSaved (PD := PD) mid (io lio lay) (XmlText.io lay') Gentle d d') d d') (f : Path) :
    OutRel (fun g g' : Glif PD (Dict L) => List.Forall₂ DrawsAlike (g.outline.getD []) (g'.outline.getD []) ∧
        ∀ n, FlattenedAlike (g.flattened (fun c => c.toComponent mid (io lio lay) (d.files (XmlText.io lay'))) n)
          (g'.flattened (fun c => c.toComponent mid (io lio lay) (d'.files (XmlText.io lay'))) n))
      (readFile mid (io lio lay) (XmlText.io lay') d {} f) (readFile mid (io lio lay) (XmlText.io lay') d' {} f) := by
  have hF : FilesAlike PD mid (io lio lay) (d.files (XmlText.io lay')) (d'.files (XmlText.io lay')) := by
    induction h with
    | refl => exact fun f => .inl rfl
    | tail _ hs ih =>
      refine ih.trans ?_
      rcases hs with ⟨p, g, hr, hg, hw⟩ | ⟨p, g, g₂, hr, hg, h2, hw⟩
      · obtain ⟨s, hs, hF, -⟩ := step_alike mid hl lay lay' hy hy' hr hg
        unfold writeFile at hw
        rw [hs, Out.bind_ok] at hw
        split at hw
        · cases hw; exact hF
        · cases hw
      · obtain ⟨s, g₃, h3, hs, hF, -⟩ := editor_alike mid (io lio lay) lay' hy' hr hg
        rw [h2] at h3; cases h3
        unfold writeFile at hw
        rw [hs, Out.bind_ok] at hw
        split at hw
        · cases hw; exact hF
        · cases hw
  exact outcome_alike hF f

/-- **C145.** A glyph of this kind can be saved from the editor to a file that can be written, and glyphs of this kind stay so. -/
theorem C145_possible (mid : IOF → IOF → IOF) (pio : PlistIO D) (lay : XmlText.Layout) (hy : Lays lay) {d : Disk} {p : Path} {g : Glif PD D}
    (hr : readFile mid pio (XmlText.io lay) d {} p = .ok g) (hg : Gentle g) (hp : d.writable p = true) :
    ∃ g₂ : Glif PD D, ∃ d', (MGlif.ofGlif g).toGlif = .ok g₂ ∧ writeFile pio (XmlText.io lay) g₂ p d = .ok d' ∧ d'.writable = d.writable ∧
      ∀ f, ∀ k : Glif PD D, readFile mid pio (XmlText.io lay) d {} f = .ok k → Gentle k →
        ∃ k' : Glif PD D, readFile mid pio (XmlText.io lay) d' {} f = .ok k' ∧ Gentle k' := by
  obtain ⟨s, g₂, h2, hs, -, hk⟩ := editor_alike mid pio lay hy hr hg
  refine ⟨g₂, d.write p s, h2, ?_, rfl, fun f k hf hkg => ?_⟩
  · unfold writeFile
    rw [hs, Out.bind_ok, if_pos hp]
  · obtain ⟨k0, hk0, rfl⟩ := readFile_atFile hf
    obtain ⟨k', hk', hg'⟩ := hk f k0 hk0 (gentle_atFile.1 hkg)
    exact ⟨_, readFile_of_holds hk', gentle_atFile.2 hg'⟩

/-! ## Samples -/

/-- What is asked of the file of a sample: lines and curves, and a lib. -/
def Sample.cubicWithLib (t : Str) : Bool :=
  match readText (PD := Unit) (fun a _ => a) (io Sample.dates64 .indented) (XmlText.io .indented) {} t with
  | .ok g => (g.outline.getD []).all (fun c => c.all fun p => p.ptype == .line || p.ptype == .curve) && (match g.lib with | .plist _ => true | _ => false)
  | _ => false

/-- C145 as stated is false: there is a file whose lib the editor loses. -/
theorem C145_false : ∃ t, ∃ g : Glif Unit _, readText (fun a _ => a) (io Sample.dates64 .indented) (XmlText.io .indented) {} t = .ok g ∧
    (∀ o, g.outline = some o → ∀ c ∈ o, Cubic c) ∧ ¬ SavesTheSame (io Sample.dates64 .indented) (XmlText.io .indented) g := by
  have hok : Sample.cubicWithLib Sample.opened = true := by decide +kernel
  unfold Sample.cubicWithLib at hok
  split at hok
  · next g hr =>
    rw [Bool.and_eq_true, List.all_eq_true] at hok
    have hq : ∀ o, g.outline = some o → ∀ c ∈ o, Cubic c := by
      intro o ho c hc p hp
      have := hok.1 c (by rw [ho]; exact hc)
      rw [List.all_eq_true] at this
      have := this p hp
      rw [Bool.or_eq_true, beq_iff_eq, beq_iff_eq] at this
      exact .inr this
    refine ⟨_, g, hr, hq, fun h => ?_⟩
    have := (C145_exact _ dates_laws .indented .indented lays_indented lays_indented {} _ g hr hq).1 h
    rw [this] at hok
    cases hok.2
  · cases hok

/-- A glyph that refers to another can be saved from the editor, so that files are saved both ways in turn. -/
example : ∃ d' d'', OpenedAndSaved (PD := Unit) (fun a _ => a) (io Sample.dates64 .indented) (XmlText.io .indented) Gentle Sample.twoFiles d' ∧
    OpenedInEditorAndSaved (PD := Unit) (fun a _ => a) (io Sample.dates64 .indented) (XmlText.io .indented) Gentle d' d'' := by
  obtain ⟨-, ⟨p, g, hr, hg, -⟩, -⟩ := Sample.twoFiles_saved
  obtain ⟨d', hd', hwr, hk⟩ := C144_possible (fun a _ => a) dates_laws .indented .indented lays_indented lays_indented hr hg rfl
  obtain ⟨k, hk, hkg⟩ := hk p g hr hg
  obtain ⟨g₂, d'', h2, hd'', -⟩ := C145_possible (fun a _ => a) _ .indented lays_indented hk hkg (by rw [hwr]; rfl)
  exact ⟨d', d'', ⟨p, g, hr, hg, hd'⟩, p, k, g₂, hk, hkg, h2, hd''⟩

end GP
