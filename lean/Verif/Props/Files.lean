import Verif.Props.Resave
import Verif.Props.Pedantry
import Verif.Props.Strings
import Verif.Spec.Files
/-!
# C82, C83: glyphs as text and in files
-/
open Fl Fl.Text
namespace GP
open Spec
variable {PD D : Type}

/-! ## C82 -/

/-- Writing the text and reading it again. -/
theorem text_trip (mid : IOF → IOF → IOF) (pio : PlistIO D) (xml : XmlIO) (g : Glif PD D) (h : Saveable pio g)
    (hx : ∀ e, glifXml pio g = .ok e → Prints xml e) :
    ∃ s e e', glifXml pio g = .ok e ∧ xml.print e = some s ∧ writeText pio xml g = .ok s ∧ xml.parse s = some e' ∧
      ∃ g', readGlif mid pio {} e' = .ok g' ∧ Resaved g g' := by
  obtain ⟨g', hg, hr⟩ := C01_partial mid pio g h
  cases he : glifXml pio g with
  | err er => rw [he] at hg; cases hg
  | panic => rw [he] at hg; cases hg
  | ok e =>
    rw [he, Out.bind_ok] at hg
    obtain ⟨s, hs, e', hp, hd⟩ := hx e he
    refine ⟨s, e, e', rfl, hs, ?_, hp, g', ?_, hr⟩
    · unfold writeText
      rw [he, Out.bind_ok, hs]
      rfl
    · rw [← C09_same_document mid pio {} e e' hd]
      exact hg

/-- **C82.** A saved glyph is in its file, and no other file has changed; read from the file it is as it
was (up to `Resaved`), and it and its components know their files. -/
theorem C82_file (mid : IOF → IOF → IOF) (pio : PlistIO D) (xml : XmlIO) (g : Glif PD D) (h : Saveable pio g)
    (hx : ∀ e, glifXml pio g = .ok e → Prints xml e) (d : Disk) (f : Path) (hw : d.writable f = true) :
    ∃ d', writeFile pio xml g f d = .ok d' ∧ d'.place = d.place ∧ d'.writable = d.writable ∧
      (∀ p, d.place p ≠ d.place f → d'.read p = d.read p) ∧
      ∀ p, d.place p = d.place f → ∃ g0, Resaved g g0 ∧
        readFile mid pio xml d' {} p = .ok { g0 with
          filename := some p,
          components := { g0.components with
            vec := g0.components.vec.map fun c => { c with filename := some (componentFile p c.base) } } } := by
  obtain ⟨s, e, e', he, hs, ht, hp, g', hg, hr⟩ := text_trip mid pio xml g h hx
  refine ⟨d.write f s, ?_, rfl, rfl, ?_, ?_⟩
  · unfold writeFile
    rw [ht, Out.bind_ok, if_pos hw]
  · intro p hne
    unfold Disk.read Disk.write
    exact if_neg hne
  · intro p he
    refine ⟨g', hr, ?_⟩
    have : (d.write f s).files xml p = some (some e') := by
      unfold Disk.files Disk.read Disk.write
      simp only [he, if_true, Option.map_some, hp]
    unfold readFile readFromFilename
    rw [this, Out.ofOption_some, Out.bind_ok, Out.ofOption_some, Out.bind_ok, hg, Out.bind_ok]
    rfl

theorem push_file {dir : Path} {name : Str} (h : '/' ∉ name) :
    dir.push (Path.ofStr (nameToFilename name true)) = fileIn dir name := by
  rw [ofStr_filename h]
  rfl

theorem fileIn_fileName (dir : Path) (name : Str) : (fileIn dir name).fileName = some (nameToFilename name true) := by
  unfold fileIn Path.fileName
  simp only [List.getLast?_append, List.getLast?_singleton, Option.some_or]
  rw [if_neg]
  rw [nameToFilename_eq]
  intro h
  have := congrArg List.length h
  simp at this

theorem componentFile_in {dir : Path} {name base : Str} (hb : '/' ∉ base) :
    componentFile (fileIn dir name) base = fileIn dir base := by
  rw [(C19_partial _ base hb _ (fileIn_fileName dir name)).1]
  simp [fileIn]

/-- **C82.** A font saved glyph by glyph to the files named after the glyphs, whose files are different
files: all glyphs are read back from their files and other files have not changed. -/
theorem C82_font (mid : IOF → IOF → IOF) (pio : PlistIO D) (xml : XmlIO) (dir : Path) (gs : List (Glif PD D))
    (hs : ∀ g ∈ gs, Saveable pio g) (hx : ∀ g ∈ gs, ∀ e, glifXml pio g = .ok e → Prints xml e)
    (hn : ∀ g ∈ gs, '/' ∉ g.name ∧ ∀ c ∈ g.components.vec, '/' ∉ c.base)
    (d : Disk) (hw : ∀ g ∈ gs, d.writable (fileIn dir g.name) = true)
    (hd : gs.Pairwise fun g h => d.place (fileIn dir g.name) ≠ d.place (fileIn dir h.name)) :
    ∃ d', writeFont pio xml dir gs d = .ok d' ∧ d'.place = d.place ∧
      (∀ p, (∀ g ∈ gs, d.place p ≠ d.place (fileIn dir g.name)) → d'.read p = d.read p) ∧
      ∀ g ∈ gs, ∃ g', readFile mid pio xml d' {} (fileIn dir g.name) = .ok g' ∧ InFont dir g g' := by
  induction gs generalizing d with
  | nil => exact ⟨d, rfl, rfl, fun _ _ => rfl, fun g hg => (nomatch hg)⟩
  | cons g gs ih =>
    obtain ⟨hng, hncs⟩ := hn g List.mem_cons_self
    obtain ⟨d1, w1, pl1, wr1, o1, r1⟩ := C82_file mid pio xml g (hs g List.mem_cons_self) (hx g List.mem_cons_self) d
      (fileIn dir g.name) (hw g List.mem_cons_self)
    rw [List.pairwise_cons] at hd
    obtain ⟨d2, w2, pl2, o2, r2⟩ := ih (fun h hh => hs h (List.mem_cons_of_mem _ hh)) (fun h hh => hx h (List.mem_cons_of_mem _ hh))
      (fun h hh => hn h (List.mem_cons_of_mem _ hh)) d1 (fun h hh => by rw [wr1]; exact hw h (List.mem_cons_of_mem _ hh))
      (by rw [pl1]; exact hd.2)
    refine ⟨d2, ?_, pl2.trans pl1, ?_, ?_⟩
    · unfold writeFont
      rw [push_file hng, w1, Out.bind_ok]
      exact w2
    · intro p hp
      rw [o2 p (fun h hh => by rw [pl1]; exact hp h (List.mem_cons_of_mem _ hh)), o1 p (hp g List.mem_cons_self)]
    · intro h hh
      rcases List.mem_cons.1 hh with rfl | hh
      · obtain ⟨g0, hr, hf⟩ := r1 (fileIn dir h.name) rfl
        have same : readFile (PD := PD) mid pio xml d2 {} (fileIn dir h.name) = readFile mid pio xml d1 {} (fileIn dir h.name) := by
          unfold readFile readFromFilename Disk.files
          rw [o2 _ (fun k hk => by rw [pl1]; exact hd.1 k hk)]
        refine ⟨_, same.trans hf, g0, hr, ?_⟩
        have : (g0.components.vec.map fun c => { c with filename := some (componentFile (fileIn dir h.name) c.base) }) =
            g0.components.vec.map fun c => { c with filename := some (fileIn dir c.base) } := by
          refine List.map_congr_left fun c hc => ?_
          have hb : '/' ∉ c.base := by
            obtain ⟨c', hc', hb, _⟩ := forall₂_mem_right hr.components hc
            rw [hb]
            exact hncs c' hc'
          rw [componentFile_in hb]
        rw [this]
      · exact r2 h hh


/-- **C82.** So it is on a file system that tells all file names apart, if the names of the glyphs are
different. -/
theorem C82_font_exact (mid : IOF → IOF → IOF) (pio : PlistIO D) (xml : XmlIO) (dir : Path) (gs : List (Glif PD D))
    (hs : ∀ g ∈ gs, Saveable pio g) (hx : ∀ g ∈ gs, ∀ e, glifXml pio g = .ok e → Prints xml e)
    (hn : ∀ g ∈ gs, '/' ∉ g.name ∧ ∀ c ∈ g.components.vec, '/' ∉ c.base) (hnd : (gs.map (·.name)).Nodup)
    (d : Disk) (hw : ∀ p, d.writable p = true) (hd : ∀ p q, d.place p = d.place q → p = q) :
    ∃ d', writeFont pio xml dir gs d = .ok d' ∧
      (∀ p, (∀ g ∈ gs, p ≠ fileIn dir g.name) → d'.read p = d.read p) ∧
      ∀ g ∈ gs, ∃ g', readFile mid pio xml d' {} (fileIn dir g.name) = .ok g' ∧ InFont dir g g' := by
  obtain ⟨d', w, _, o, r⟩ := C82_font mid pio xml dir gs hs hx hn d (fun g _ => hw _) (by
    rw [List.Nodup, List.pairwise_map] at hnd
    refine hnd.imp fun {g h} hne he => hne ?_
    have := congrArg Path.parts (hd _ _ he)
    simp only [fileIn, List.append_cancel_left_eq, List.cons.injEq, and_true] at this
    exact C17_injective true _ _ this)
  exact ⟨d', w, fun p hp => o p fun g hg he => hp g hg (hd _ _ he), r⟩

/-- **C82.** So it is also on a file system that ignores case, if the names of the glyphs are different
and none of them has a `Z` or a letter `a` to `y` directly before an underscore (C18). -/
theorem C82_font_case (mid : IOF → IOF → IOF) (pio : PlistIO D) (xml : XmlIO) (dir : Path) (gs : List (Glif PD D))
    (hs : ∀ g ∈ gs, Saveable pio g) (hx : ∀ g ∈ gs, ∀ e, glifXml pio g = .ok e → Prints xml e)
    (hn : ∀ g ∈ gs, '/' ∉ g.name ∧ ∀ c ∈ g.components.vec, '/' ∉ c.base) (hnd : (gs.map (·.name)).Nodup)
    (hcs : ∀ g ∈ gs, CaseSafe g.name) (d : Disk) (hw : ∀ p, d.writable p = true) (hd : IgnoresCaseAtMost d) :
    ∃ d', writeFont pio xml dir gs d = .ok d' ∧
      ∀ g ∈ gs, ∃ g', readFile mid pio xml d' {} (fileIn dir g.name) = .ok g' ∧ InFont dir g g' := by
  obtain ⟨d', w, _, _, r⟩ := C82_font mid pio xml dir gs hs hx hn d (fun g _ => hw _) (by
    rw [List.Nodup, List.pairwise_map] at hnd
    refine List.Pairwise.imp_of_mem (fun {g h} hg hh hne he => ?_) hnd
    have := hd _ _ he
    simp only [fileIn] at this
    have last : ∀ {l : List Str} {x y : Str}, List.Forall₂ SameIgnoringCase (l ++ [x]) (l ++ [y]) → SameIgnoringCase x y := by
      intro l x y h
      induction l with
      | nil => cases h; assumption
      | cons a l ih => cases h; exact ih (by assumption)
    exact C18_partial true _ _ (hcs g hg) (hcs h hh) hne (last this))
  exact ⟨d', w, r⟩

/-- **C82.** In a font saved that way the file of a component is that of the glyph it refers to. -/
theorem C82_components {dir : Path} {gs : List (Glif PD D)} {rd : Path → R (Glif PD D)}
    (hr : ∀ g ∈ gs, ∃ g', rd (fileIn dir g.name) = .ok g' ∧ InFont dir g g')
    {g g' : Glif PD D} (hg : InFont dir g g') {c : GlifComponent} (hc : c ∈ g'.components.vec)
    {h : Glif PD D} (hh : h ∈ gs) (hb : h.name = c.base) :
    ∃ f h', c.filename = some f ∧ rd f = .ok h' ∧ InFont dir h h' := by
  obtain ⟨g0, _, rfl⟩ := hg
  obtain ⟨c0, _, rfl⟩ := List.mem_map.1 hc
  obtain ⟨h', h1, h2⟩ := hr h hh
  refine ⟨_, h', rfl, ?_, h2⟩
  rw [← h1, hb]

/-! ## C83 -/

/-- **C83.** Making a glyph of a text panics exactly if the text is not XML, is not an acceptable document
or makes the reader panic (C58, C07), and otherwise gives what reading the text gives; it never returns
an error. -/
theorem C83_from_text (mid : IOF → IOF → IOF) (pio : PlistIO D) (xml : XmlIO) (s : Str) :
    (glifFromText (PD := PD) mid pio xml s = .panic ↔
      ∀ root, xml.parse s = some root → ¬ Acceptable {} root ∨ ∃ c ∈ contoursOf root, QuadraticInCubic c) ∧
    (∀ g : Glif PD D, glifFromText mid pio xml s = .ok g ↔
      ∃ root, xml.parse s = some root ∧ readGlif mid pio {} root = .ok g) ∧
    ∀ e, glifFromText (PD := PD) mid pio xml s ≠ .err e := by
  unfold glifFromText readText
  cases hp : xml.parse s with
  | none => simp [expectOk, Out.ofOption]
  | some root =>
    rw [Out.ofOption_some, Out.bind_ok]
    have hi := read_iff (PD := PD) mid pio {} root
    cases hr : readGlif (PD := PD) mid pio {} root with
    | ok g =>
      rw [hr] at hi
      obtain ⟨a, c⟩ := hi.1 ⟨g, rfl⟩
      simp only [expectOk, reduceCtorEq, false_iff]
      refine ⟨?_, ?_, by simp⟩
      · intro h; rcases h root rfl with h | h
        · exact h a
        · exact c h
      · simp [hr]
    | err er =>
      rw [hr] at hi
      simp only [expectOk, true_iff]
      refine ⟨?_, by simp [hr], by simp⟩
      rintro _ ⟨⟩
      by_contra hh
      rw [not_or, not_not] at hh
      obtain ⟨g, hg⟩ := hi.2 hh
      cases hg
    | panic =>
      rw [hr] at hi
      simp only [expectOk, true_iff]
      refine ⟨?_, by simp [hr], by simp⟩
      rintro _ ⟨⟩
      by_contra hh
      rw [not_or, not_not] at hh
      obtain ⟨g, hg⟩ := hi.2 hh
      cases hg

/-- **C83.** Making a text of a glyph panics exactly if some contour has no on-curve point, or a point that
is undefined or of type qclose, or if `xmltree` cannot print the element; it never returns an error. -/
theorem C83_into_text (pio : PlistIO D) (xml : XmlIO) (g : Glif PD D) :
    (glifIntoText pio xml g = .panic ↔
      (∃ c ∈ g.outline.getD [], Unwritable c) ∨ ∃ e, glifXml pio g = .ok e ∧ xml.print e = none) ∧
    (∀ s, glifIntoText pio xml g = .ok s ↔ ∃ e, glifXml pio g = .ok e ∧ xml.print e = some s) ∧
    ∀ e, glifIntoText pio xml g ≠ .err e := by
  have hp := glifXml_panic pio g
  simp only [C05_panics_iff] at hp
  unfold glifIntoText writeText Unwritable
  cases he : glifXml pio g with
  | err er => exact absurd he (C06_no_err pio g er)
  | panic =>
    rw [he] at hp
    simp only [true_iff] at hp
    exact ⟨by simp [hp, expectOk], by simp [expectOk], by simp [expectOk]⟩
  | ok e =>
    rw [he] at hp
    simp only [reduceCtorEq, false_iff] at hp
    rw [Out.bind_ok]
    cases hs : xml.print e <;> simp [hp, expectOk, Out.ofOption, hs]

/-- **C83.** A saveable glyph made into a text and back is the glyph saved and read (`Resaved`). -/
theorem C83_round_trip (mid : IOF → IOF → IOF) (pio : PlistIO D) (xml : XmlIO) (g : Glif PD D) (h : Saveable pio g)
    (hx : ∀ e, glifXml pio g = .ok e → Prints xml e) :
    ∃ s g', glifIntoText pio xml g = .ok s ∧ glifFromText mid pio xml s = .ok g' ∧ Resaved g g' := by
  obtain ⟨s, e, e', he, hs, ht, hp, g', hg, hr⟩ := text_trip mid pio xml g h hx
  refine ⟨s, g', ?_, ?_, hr⟩
  · unfold glifIntoText; rw [ht]; rfl
  · unfold glifFromText readText; rw [hp, Out.ofOption_some, Out.bind_ok, hg]; rfl


/-! ## Glyphs, a file system and a printer that meet the conditions -/

namespace Sample

/-- A glyph that refers to the next one. -/
def gA (D : Type) : Glif Unit D := { name := "A".toList, components := { vec := [{ GlifComponent.new with base := "a".toList }] } }
/-- A glyph with a contour. -/
def ga (D : Type) : Glif Unit D := { name := "a".toList, width := some 500, outline := some [[pt .line 0 0, pt .line 5 0, pt .line 5 5]] }

/-- A printer that is good for two glyphs: their texts are their names. -/
def names (pio : PlistIO D) : XmlIO :=
  { print := fun e => e.get "name"
    parse := fun s =>
      if s = "A".toList then (match glifXml pio (gA D) with | .ok e => some e | _ => none)
      else (match glifXml pio (ga D) with | .ok e => some e | _ => none) }

/-- A file system that ignores case, without files. -/
def caseless : Disk :=
  { place := fun p => { p with parts := p.parts.map (·.map lower) }, text := fun _ => none, writable := fun _ => true }

end Sample

theorem sameDoc_refl (e : Element) : SameDoc e e := by
  have h : ∀ {rel : Element → Element → Prop} (l : List Element), (∀ e, rel e e) → List.Forall₂ rel l l :=
    fun l hr => List.forall₂_same.2 fun e _ => hr e
  exact ⟨rfl, sameLeaf_refl e, h _ sameLeaf_refl, h _ sameLeaf_refl, h _ sameLeaf_refl, h _ sameLeaf_refl, h _ sameLeaf_refl,
    rfl, h _ sameOutline_refl, h _ fun _ => ⟨rfl, rfl⟩⟩

theorem glifXml_name {pio : PlistIO D} {g : Glif PD D} {e : Element} (h : glifXml pio g = .ok e) : e.get "name" = some g.name := by
  rw [glifXml_eq] at h
  cases ho : outlineElem g <;> rw [ho] at h <;> cases h
  rfl

example (pio : PlistIO D) : ∀ g ∈ [Sample.gA D, Sample.ga D], ∀ e, glifXml pio g = .ok e → Prints (Sample.names pio) e := by
  intro g hg e he
  refine ⟨g.name, glifXml_name he, e, ?_, sameDoc_refl e⟩
  rw [List.mem_cons, List.mem_singleton] at hg
  rcases hg with rfl | rfl
  · simp only [Sample.names, show (Sample.gA D).name = "A".toList from rfl, if_true, he]
  · simp only [Sample.names, show (Sample.ga D).name = "a".toList from rfl]
    rw [if_neg (by decide), he]

theorem Sample.two_saveable (pio : PlistIO D) : (∀ g ∈ [Sample.gA D, Sample.ga D], Saveable pio g ∧ CaseSafe g.name ∧
      '/' ∉ g.name ∧ ∀ c ∈ g.components.vec, '/' ∉ c.base) ∧
    ([Sample.gA D, Sample.ga D].map (·.name)).Nodup ∧ IgnoresCaseAtMost Sample.caseless := by
  refine ⟨?_, by simp [Sample.gA, Sample.ga], ?_⟩
  · intro g hg
    rw [List.mem_cons, List.mem_singleton] at hg
    rcases hg with rfl | rfl
    · refine ⟨⟨fun o ho => (nomatch ho), fun w hw => (nomatch hw), fun a ha => (nomatch ha), trivial⟩, ⟨by simp [Sample.gA], ?_⟩, by simp [Sample.gA], ?_⟩
      · intro i c h1 h2
        simp [Sample.gA] at h2
      · intro c hc
        rw [show (Sample.gA D).components.vec = [{ GlifComponent.new with base := "a".toList }] from rfl, List.mem_singleton] at hc
        subst hc
        decide
    · refine ⟨⟨?_, fun w hw => by cases hw; decide, fun a ha => (nomatch ha), trivial⟩, ⟨by simp [Sample.ga], ?_⟩, by simp [Sample.ga], fun c hc => (nomatch hc)⟩
      · intro o ho c hc
        cases ho
        rw [List.mem_singleton] at hc
        subst hc
        exact ⟨by simp, by simp [Cubic, Sample.pt]⟩
      · intro i c h1 h2
        simp [Sample.ga] at h2
  · intro p q h
    have := congrArg Path.parts h
    simp only [Sample.caseless] at this
    generalize p.parts = a at this
    generalize q.parts = b at this
    induction a generalizing b with
    | nil => cases b <;> simp_all
    | cons x a ih =>
      cases b with
      | nil => simp at this
      | cons y b =>
        simp only [List.map_cons, List.cons.injEq] at this
        exact .cons this.1 (ih b this.2)

end GP
