import Verif.Props.Files
import Verif.Props.Component
/-!
# C84: a saved font resolves
-/
open Fl Fl.Text
namespace GP
open Spec
variable {PD D : Type}

theorem readFile_holds {mid : IOF → IOF → IOF} {pio : PlistIO D} {xml : XmlIO} {d : Disk} {f : Path} {g : Glif PD D}
    (h : readFile mid pio xml d {} f = .ok g) :
    ∃ g0, Holds PD mid pio (d.files xml) f g0 ∧ g.components.vec = g0.components.vec.map (located f) ∧
      g.components.uniques = g0.components.uniques := by
  unfold readFile readFromFilename at h
  match hx : d.files xml f with
  | none => rw [hx] at h; cases h
  | some none => rw [hx] at h; cases h
  | some (some e) =>
    rw [hx] at h
    simp only [Out.ofOption_some, Out.bind_ok] at h
    match hr : (readGlif mid pio {} e : R (Glif PD D)) with
    | .err er => rw [hr] at h; cases h
    | .panic => rw [hr] at h; cases h
    | .ok g0 =>
      rw [hr] at h
      cases h
      exact ⟨g0, ⟨e, hx, hr⟩, rfl, rfl⟩

theorem holds_unique {mid : IOF → IOF → IOF} {pio : PlistIO D} {files : Files} {f : Path} {g h : Glif PD D}
    (hg : Holds PD mid pio files f g) (hh : Holds PD mid pio files f h) : g = h := by
  obtain ⟨e, h1, h2⟩ := hg
  obtain ⟨e', h1', h2'⟩ := hh
  rw [h1] at h1'
  cases h1'
  rw [h2] at h2'
  cases h2'
  rfl

theorem inFont_bases {dir : Path} {g g' : Glif PD D} (h : InFont dir g g') :
    g'.components.vec.map (·.base) = g.components.vec.map (·.base) ∧
    (∀ c ∈ g'.components.vec, c.filename = some (fileIn dir c.base)) ∧ g'.components.uniques = [] := by
  obtain ⟨g0, hr, rfl⟩ := h
  refine ⟨?_, ?_, hr.componentRoot.2⟩
  · simp only [List.map_map]
    have := hr.components
    generalize g0.components.vec = v at this
    generalize g.components.vec = w at this
    induction this with
    | nil => rfl
    | cons hab _ ih => simp only [List.map_cons, ih, Function.comp, hab.1]
  · intro c hc
    obtain ⟨c0, _, rfl⟩ := List.mem_map.1 hc
    rfl

theorem fileIn_inj {dir : Path} {a b : Str} (h : fileIn dir a = fileIn dir b) : a = b := by
  have := congrArg Path.parts h
  simp only [fileIn, List.append_cancel_left_eq, List.cons.injEq, and_true] at this
  exact C17_injective true _ _ this


section
variable {mid : IOF → IOF → IOF} {pio : PlistIO D} {files : Files} {dir : Path} {gs : List (Glif PD D)}

/-- The files hold the font. -/
def FontIn (PD : Type) {D : Type} (mid : IOF → IOF → IOF) (pio : PlistIO D) (files : Files) (dir : Path) (gs : List (Glif PD D)) : Prop :=
  ∀ h ∈ gs, ∃ g0 : Glif PD D, Holds PD mid pio files (fileIn dir h.name) g0 ∧
    g0.components.vec.map (·.base) = h.components.vec.map (·.base) ∧
    ∀ c ∈ g0.components.vec, (located (fileIn dir h.name) c).filename = some (fileIn dir c.base)

/-- A reference to a glyph of the font, in its place. -/
def Good (dir : Path) (gs : List (Glif PD D)) (d : GlifComponent) : Prop :=
  d.filename = some (fileIn dir d.base) ∧ ∃ h ∈ gs, h.name = d.base

theorem base_mem {v w : List GlifComponent} (h : v.map (·.base) = w.map (·.base)) {c : GlifComponent} (hc : c ∈ v) :
    ∃ c' ∈ w, c'.base = c.base := by
  have : c.base ∈ w.map (·.base) := h ▸ List.mem_map_of_mem hc
  obtain ⟨c', hc', e⟩ := List.mem_map.1 this
  exact ⟨c', hc', e⟩

theorem good_step (hF : FontIn PD mid pio files dir gs) (hcl : ∀ g ∈ gs, ∀ c ∈ g.components.vec, ∃ h ∈ gs, h.name = c.base)
    {d e : GlifComponent} (hd : Good dir gs d) (h : Refers PD mid pio files d e) : Good dir gs e ∧ RefersTo gs d.base e.base := by
  obtain ⟨hf, g, hg, hn⟩ := hd
  obtain ⟨f, g1, hf1, hol, c, hc, rfl⟩ := h
  rw [hf] at hf1
  cases hf1
  obtain ⟨g0, h0, hb, hl⟩ := hF g hg
  rw [hn] at h0 hl
  cases holds_unique h0 hol
  obtain ⟨c', hc', e'⟩ := base_mem hb hc
  obtain ⟨k, hk, hkn⟩ := hcl g hg c' hc'
  exact ⟨⟨hl c hc, k, hk, hkn.trans e'⟩, g, hg, hn, c', hc', e'⟩

theorem good_lift (hF : FontIn PD mid pio files dir gs) {d : GlifComponent} (hd : Good dir gs d) {b : Str}
    (h : RefersTo gs d.base b) : ∃ e, Refers PD mid pio files d e ∧ e.base = b := by
  obtain ⟨g, hg, hn, c, hc, rfl⟩ := h
  obtain ⟨g0, h0, hb, hl⟩ := hF g hg
  obtain ⟨c', hc', e'⟩ := base_mem hb.symm hc
  rw [hn] at h0
  exact ⟨located (fileIn dir d.base) c', ⟨_, g0, hd.1, h0, c', hc', rfl⟩, e'⟩

theorem good_reach (hF : FontIn PD mid pio files dir gs) (hcl : ∀ g ∈ gs, ∀ c ∈ g.components.vec, ∃ h ∈ gs, h.name = c.base)
    {d e : GlifComponent} (hd : Good dir gs d) (h : Reach PD mid pio files d e) :
    Good dir gs e ∧ Relation.ReflTransGen (RefersTo gs) d.base e.base := by
  induction h with
  | refl => exact ⟨hd, .refl⟩
  | tail _ h ih =>
    obtain ⟨g1, g2⟩ := good_step hF hcl ih.1 h
    exact ⟨g1, ih.2.tail g2⟩

theorem good_reach_lift (hF : FontIn PD mid pio files dir gs) (hcl : ∀ g ∈ gs, ∀ c ∈ g.components.vec, ∃ h ∈ gs, h.name = c.base)
    {d : GlifComponent} (hd : Good dir gs d) {b : Str} (h : Relation.ReflTransGen (RefersTo gs) d.base b) :
    ∃ e, Reach PD mid pio files d e ∧ e.base = b := by
  induction h with
  | refl => exact ⟨d, .refl, rfl⟩
  | tail _ h ih =>
    obtain ⟨e, he, rfl⟩ := ih
    obtain ⟨e', he', hb⟩ := good_lift hF (good_reach hF hcl hd he).1 h
    exact ⟨e', he.tail he', hb⟩

theorem cyclic_iff (hF : FontIn PD mid pio files dir gs) (hcl : ∀ g ∈ gs, ∀ c ∈ g.components.vec, ∃ h ∈ gs, h.name = c.base)
    {a : Str} {cs : List GlifComponent} (hcs : ∀ c ∈ cs, Good dir gs c ∧ RefersTo gs a c.base)
    (hcs' : ∀ b, RefersTo gs a b → ∃ c ∈ cs, c.base = b) :
    Cyclic PD mid pio files cs ↔ LeadsToCycle gs a := by
  constructor
  · rintro ⟨c, hc, d, d', h1, h2, h3⟩
    obtain ⟨hg, hr⟩ := hcs c hc
    obtain ⟨gd, rd⟩ := good_reach hF hcl hg h1
    obtain ⟨e, h4, h5⟩ := Relation.TransGen.head'_iff.1 h2
    obtain ⟨ge, re⟩ := good_step hF hcl gd h4
    obtain ⟨gd', rd'⟩ := good_reach hF hcl ge h5
    have : d'.base = d.base := by
      rw [gd.1, gd'.1] at h3
      exact fileIn_inj (Option.some.inj h3)
    refine ⟨d.base, Relation.TransGen.head' hr rd, ?_⟩
    have := this ▸ Relation.TransGen.head' re rd'
    exact this
  · rintro ⟨b, h1, h2⟩
    obtain ⟨x, hx, hxb⟩ := Relation.TransGen.head'_iff.1 h1
    obtain ⟨c, hc, rfl⟩ := hcs' x hx
    obtain ⟨d, hd, rfl⟩ := good_reach_lift hF hcl (hcs c hc).1 hxb
    have gd := (good_reach hF hcl (hcs c hc).1 hd).1
    obtain ⟨y, hy, hyb⟩ := Relation.TransGen.head'_iff.1 h2
    obtain ⟨e, he, rfl⟩ := good_lift hF gd hy
    have ge := (good_step hF hcl gd he).1
    obtain ⟨d', hd', hb⟩ := good_reach_lift hF hcl ge hyb
    have gd' := (good_reach hF hcl ge hd').1
    exact ⟨c, hc, d, d', hd, Relation.TransGen.head' he hd', by rw [gd.1, gd'.1, hb]⟩

end

theorem nodup_name {α β : Type} {f : α → β} {l : List α} (h : (l.map f).Nodup) {a b : α} (ha : a ∈ l) (hb : b ∈ l)
    (e : f a = f b) : a = b := by
  induction l with
  | nil => cases ha
  | cons x l ih =>
    rw [List.map_cons, List.nodup_cons] at h
    rcases List.mem_cons.1 ha with ea | ha' <;> rcases List.mem_cons.1 hb with eb | hb'
    · rw [ea, eb]
    · exact absurd (List.mem_map.2 ⟨b, hb', by rw [← e, ea]⟩) h.1
    · exact absurd (List.mem_map.2 ⟨a, ha', by rw [e, eb]⟩) h.1
    · exact ih h.2 ha' hb'

theorem fontIn_read {mid : IOF → IOF → IOF} {pio : PlistIO D} {xml : XmlIO} {dir : Path} {gs : List (Glif PD D)} {d : Disk}
    (r : ∀ g ∈ gs, ∃ g', readFile mid pio xml d {} (fileIn dir g.name) = .ok g' ∧ InFont dir g g') :
    FontIn PD mid pio (d.files xml) dir gs := by
  intro h hh
  obtain ⟨h', hh', hi⟩ := r h hh
  obtain ⟨b1, b2, _⟩ := inFont_bases hi
  obtain ⟨h0, hol, hv, _⟩ := readFile_holds hh'
  refine ⟨h0, hol, ?_, ?_⟩
  · rw [← b1, hv, List.map_map]; rfl
  · intro c hc
    exact b2 (located _ c) (hv ▸ List.mem_map_of_mem hc)

/-- **C84.** A font all of whose components refer to glyphs of the font, saved glyph by glyph: each glyph
read back from its file resolves, however deep its components are nested, exactly if no chain of
references leads from it to a glyph that refers to itself, and otherwise the cyclic error is returned. -/
theorem C84_resolves (mid : IOF → IOF → IOF) (pio : PlistIO D) (xml : XmlIO) (dir : Path) (gs : List (Glif PD D))
    (hs : ∀ g ∈ gs, Saveable pio g) (hx : ∀ g ∈ gs, ∀ e, glifXml pio g = .ok e → Prints xml e)
    (hn : ∀ g ∈ gs, '/' ∉ g.name) (hnd : (gs.map (·.name)).Nodup)
    (hcl : ∀ g ∈ gs, ∀ c ∈ g.components.vec, ∃ h ∈ gs, h.name = c.base)
    (d : Disk) (hw : ∀ p, d.writable p = true) (hd : ∀ p q, d.place p = d.place q → p = q)
    (fs : List Path) (hfs : ∀ p, d.read p ≠ none → p ∈ fs) :
    ∃ d', writeFont pio xml dir gs d = .ok d' ∧
      ∀ g ∈ gs, ∃ g', readFile mid pio xml d' {} (fileIn dir g.name) = .ok g' ∧ InFont dir g g' ∧
        ∃ n, ∃ r : R (List (Tree (Component PD D))),
          (∀ m, n ≤ m → g'.components.forest (fun c => c.toComponent mid pio (d'.files xml)) m = some r) ∧
          (r = .err .componentsCyclical ↔ LeadsToCycle gs g.name) ∧
          ((∃ ts, r = .ok ts) ↔ ¬ LeadsToCycle gs g.name) := by
  have hb : ∀ g ∈ gs, ∀ c ∈ g.components.vec, '/' ∉ c.base := by
    intro g hg c hc
    obtain ⟨h, hh, e⟩ := hcl g hg c hc
    exact e ▸ hn h hh
  obtain ⟨d', w, o, r⟩ := C82_font_exact mid pio xml dir gs hs hx (fun g hg => ⟨hn g hg, hb g hg⟩) hnd d hw hd
  refine ⟨d', w, fun g hg => ?_⟩
  obtain ⟨g', hg', hi⟩ := r g hg
  refine ⟨g', hg', hi, ?_⟩
  have hF : FontIn PD mid pio (d'.files xml) dir gs := fontIn_read r
  obtain ⟨b1, b2, b3⟩ := inFont_bases hi
  have hcs : ∀ c ∈ g'.components.vec, Good dir gs c ∧ RefersTo gs g.name c.base := by
    intro c hc
    obtain ⟨c', hc', e⟩ := base_mem b1 hc
    obtain ⟨h, hh, e'⟩ := hcl g hg c' hc'
    exact ⟨⟨b2 c hc, h, hh, e'.trans e⟩, g, hg, rfl, c', hc', e⟩
  have hcs' : ∀ b, RefersTo gs g.name b → ∃ c ∈ g'.components.vec, c.base = b := by
    rintro b ⟨h, hh, hne, c, hc, rfl⟩
    have : h = g := nodup_name hnd hh hg hne
    subst this
    exact base_mem b1.symm hc
  obtain ⟨n, r', hr, h1, h2⟩ := C20_cycles (PD := PD) (mid := mid) (pio := pio) (files := d'.files xml)
    (fs ++ gs.map fun g => fileIn dir g.name) (by
      intro p hp
      by_cases hm : ∃ g ∈ gs, p = fileIn dir g.name
      · obtain ⟨g, hg, rfl⟩ := hm
        exact List.mem_append_right _ (List.mem_map.2 ⟨g, hg, rfl⟩)
      · refine List.mem_append_left _ (hfs p ?_)
        rw [← o p (fun g hg e => hm ⟨g, hg, e⟩)]
        intro h0
        exact hp (by unfold Disk.files; rw [h0]; rfl)) b3 (by
      intro c hc e he
      obtain ⟨ge, h, hh, e'⟩ := (good_reach hF hcl (hcs c hc).1 he).1
      obtain ⟨g0, hol, _⟩ := hF h hh
      rw [e'] at hol
      exact ⟨_, g0, ge, hol⟩) (by
      intro c hc c' hc' e e' he he' hbe
      rw [(good_reach hF hcl (hcs c hc).1 he).1.1, (good_reach hF hcl (hcs c' hc').1 he').1.1, hbe])
  rw [cyclic_iff hF hcl hcs hcs'] at h1 h2
  exact ⟨n, r', hr, h1, h2⟩

/-- The two glyphs of the example above refer to each other's names only one way. -/
example : ¬ LeadsToCycle [Sample.gA D, Sample.ga D] "A".toList := by
  have h : ∀ a b, RefersTo [Sample.gA D, Sample.ga D] a b → a = "A".toList ∧ b = "a".toList := by
    rintro a b ⟨g, hg, rfl, c, hc, rfl⟩
    rw [List.mem_cons, List.mem_singleton] at hg
    rcases hg with rfl | rfl
    · rw [show (Sample.gA D).components.vec = [{ GlifComponent.new with base := "a".toList }] from rfl, List.mem_singleton] at hc
      subst hc
      exact ⟨rfl, rfl⟩
    · cases hc
  rintro ⟨b, -, h2⟩
  obtain ⟨x, hx, -⟩ := Relation.TransGen.head'_iff.1 h2
  obtain ⟨y, -, hy⟩ := Relation.TransGen.tail'_iff.1 h2
  have := (h _ _ hx).1.symm.trans (h _ _ hy).2
  exact absurd this (by decide)

end GP
