import Verif.Spec.Locality
import Verif.Props.FilesFont
/-!
# C134: flattening reads the files of the glyphs referred to, and no others
-/
open Fl Fl.Text
namespace GP
open Spec
variable {PD D : Type}

theorem Run.mapM_same {α β : Type} {f f' : α → Run β} {l : List α} (h : ∀ a ∈ l, f a = f' a) : Run.mapM f l = Run.mapM f' l := by
  induction l with
  | nil => rfl
  | cons a l ih =>
    simp only [Run.mapM, h a (List.mem_cons_self ..), ih fun b hb => h b (List.mem_cons_of_mem _ hb)]

section
variable {mid : IOF → IOF → IOF} {pio : PlistIO D} {files files' : Files}

/-- A component depends on its file only. -/
theorem toComponent_same {c : GlifComponent} (h : ∀ f, c.filename = some f → files' f = files f) :
    (c.toComponent mid pio files' : R (Component PD D)) = c.toComponent mid pio files := by
  unfold GlifComponent.toComponent
  match hf : c.filename with
  | none => rfl
  | some f => simp only [Out.ofOption_some, Out.bind_ok, h f hf]

theorem buildTree_same (n : Nat) (u : List Str) (comp : Component PD D)
    (h : ∀ f, FileUsed PD mid pio files comp.glif.components.vec f → files' f = files f) :
    buildTree (fun c => c.toComponent mid pio files') n u comp = buildTree (fun c => c.toComponent mid pio files) n u comp := by
  induction n generalizing u comp with
  | zero => rfl
  | succ n ih =>
    rw [buildTree_succ, buildTree_succ]
    congr 1
    refine Run.mapM_same fun c hc => ?_
    unfold buildKid
    split
    · rfl
    · simp only [toComponent_same (PD := PD) (mid := mid) (pio := pio) fun f hf => h f ⟨c, hc, c, .refl, hf⟩]
      match hcc : (c.toComponent mid pio files : R (Component PD D)) with
      | .err e => rfl
      | .panic => rfl
      | .ok k =>
        simp only [Run.bind_ok]
        refine ih _ k ?_
        rintro f ⟨d, hd, e, he, hf⟩
        exact h f ⟨c, hc, e, .head (refers_iff.2 ⟨k, hcc, hd⟩) he, hf⟩

/-- **C134.** When two file systems agree on the files of the glyphs that a glyph refers to, directly and indirectly, resolving its
components and flattening it have the same outcome, whatever the others hold: the same glyph, the same error, a panic in both, or no end
in both. -/
theorem C134_local (g : Glif PD D) (h : ∀ f, FileUsed PD mid pio files g.components.vec f → files' f = files f) (n : Nat) :
    g.components.forest (fun c => c.toComponent (PD := PD) mid pio files') n = g.components.forest (fun c => c.toComponent mid pio files) n ∧
    g.flattened (fun c => c.toComponent mid pio files') n = g.flattened (fun c => c.toComponent mid pio files) n := by
  have hf : g.components.forest (fun c => c.toComponent (PD := PD) mid pio files') n =
      g.components.forest (fun c => c.toComponent mid pio files) n := by
    rw [forest_eq, forest_eq]
    refine Run.mapM_same fun c hc => ?_
    unfold buildRoot
    simp only [toComponent_same (PD := PD) (mid := mid) (pio := pio) fun f hf => h f ⟨c, hc, c, .refl, hf⟩]
    match hcc : (c.toComponent mid pio files : R (Component PD D)) with
    | .err e => rfl
    | .panic => rfl
    | .ok k =>
      simp only [Run.bind_ok]
      refine buildTree_same n _ k ?_
      rintro f ⟨d, hd, e, he, hf⟩
      exact h f ⟨c, hc, e, .head (refers_iff.2 ⟨k, hcc, hd⟩) he, hf⟩
  exact ⟨hf, by unfold Glif.flattened; rw [hf]⟩

theorem unfolds_resolvable {c d : GlifComponent} {t : Tree (Component PD D)} (h : Unfolds PD mid pio files c t)
    (hr : Reach PD mid pio files c d) : Resolvable PD mid pio files d := by
  induction hr using Relation.ReflTransGen.head_induction_on generalizing t with
  | refl =>
    obtain ⟨f, g, hf, hg, -⟩ := h
    exact ⟨f, g, hf, hg⟩
  | head hab _ ih =>
    obtain ⟨f, g, hf, hg, -, -, -, -, -, hch⟩ := h
    obtain ⟨f', g', hf', hg', d', hd', rfl⟩ := hab
    rw [hf] at hf'
    cases hf'
    cases holds_unique hg hg'
    have : ∀ {l : List GlifComponent} {ts : List (Tree (Component PD D))}, List.Forall₂ (Unfolds PD mid pio files) l ts →
        ∀ x ∈ l, ∃ t, Unfolds PD mid pio files x t := by
      intro l ts hl
      induction hl with
      | nil => intro x hx; cases hx
      | cons hh _ ih =>
        intro x hx
        rcases List.mem_cons.1 hx with rfl | hx
        · exact ⟨_, hh⟩
        · exact ih x hx
    obtain ⟨t', ht'⟩ := this hch _ (List.mem_map_of_mem hd')
    exact ih ht'

/-- **C134.** Each of them is read: if flattening succeeds, each of these files holds a glyph... -/
theorem C134_read (g f : Glif PD D) (n : Nat) (rects : List ComponentRect)
    (h : g.flattened (fun c => c.toComponent mid pio files) n = some (.ok (f, rects))) (p : Path)
    (hp : FileUsed PD mid pio files g.components.vec p) : ∃ k, Holds PD mid pio files p k := by
  obtain ⟨c, hc, d, hr, hd⟩ := hp
  unfold Glif.flattened at h
  match hf : g.components.forest (fun c => (c.toComponent mid pio files : R (Component PD D))) n with
  | none => rw [hf] at h; cases h
  | some (.err e) => rw [hf] at h; cases h
  | some .panic => rw [hf] at h; cases h
  | some (.ok ts) =>
    have hu := C21_unfolding hf
    have : ∀ {l : List GlifComponent} {ts : List (Tree (Component PD D))}, List.Forall₂ (Unfolds PD mid pio files) l ts →
        ∀ x ∈ l, ∃ t, Unfolds PD mid pio files x t := by
      intro l ts hl
      induction hl with
      | nil => intro x hx; cases hx
      | cons hh _ ih =>
        intro x hx
        rcases List.mem_cons.1 hx with rfl | hx
        · exact ⟨_, hh⟩
        · exact ih x hx
    obtain ⟨t, ht⟩ := this hu c hc
    obtain ⟨p', k, hp', hk⟩ := unfolds_resolvable ht hr
    rw [hd] at hp'
    cases hp'
    exact ⟨k, hk⟩

/-- **C134.** ... and no glyph that needs a file can be flattened once that file is gone or holds no glyph, whatever is done to files it does
not use. -/
theorem C134_needed (g : Glif PD D) (p : Path) (hp : FileUsed PD mid pio files g.components.vec p)
    (ha : ∀ q, q ≠ p → FileUsed PD mid pio files g.components.vec q → files' q = files q)
    (hm : ∀ k : Glif PD D, ¬ Holds PD mid pio files' p k) (n : Nat) (f : Glif PD D) (rects : List ComponentRect) :
    g.flattened (fun c => c.toComponent mid pio files') n ≠ some (.ok (f, rects)) := by
  intro h
  obtain ⟨c, hc, d, hr, hd⟩ := hp
  have key : ∀ e, Reach PD mid pio files c e → Reach PD mid pio files' c e := by
    intro e he
    induction he with
    | refl => exact .refl
    | tail h1 h2 ih =>
      refine ih.tail ?_
      obtain ⟨q, k, hq, ⟨x, hx, hk⟩, d', hd', rfl⟩ := h2
      obtain ⟨k', hk'⟩ := C134_read g f n rects h q ⟨c, hc, _, ih, hq⟩
      by_cases e : q = p
      · exact absurd (e ▸ hk') (hm k')
      · exact ⟨q, k, hq, ⟨x, (ha q e ⟨c, hc, _, h1, hq⟩).trans hx, hk⟩, d', hd', rfl⟩
  obtain ⟨k, hk⟩ := C134_read g f n rects h p ⟨c, hc, d, key d hr, hd⟩
  exact hm k hk

end

/-- **C134.** So writing a file, whatever is written, leaves flattening as it was if no glyph referred to is in that file. -/
theorem C134_write (mid : IOF → IOF → IOF) (pio : PlistIO D) (xml : XmlIO) (d : Disk) (g : Glif PD D) (p : Path) (s : Str)
    (h : ∀ q, FileUsed PD mid pio (d.files xml) g.components.vec q → d.place q ≠ d.place p) (n : Nat) :
    g.flattened (fun c => c.toComponent mid pio ((d.write p s).files xml)) n = g.flattened (fun c => c.toComponent mid pio (d.files xml)) n := by
  refine (C134_local g (fun q hq => ?_) n).2
  simp only [Disk.files, Disk.read, Disk.write, if_neg (h q hq)]

/-- **C134.** In a font that was saved, saving a glyph again, or a new one, changes neither what is read for another glyph nor what that
is flattened to, unless that one refers to it directly or indirectly. -/
theorem C134_font (mid : IOF → IOF → IOF) (pio : PlistIO D) (xml : XmlIO) (dir : Path) (gs : List (Glif PD D))
    (hs : ∀ g ∈ gs, Saveable pio g) (hx : ∀ g ∈ gs, ∀ e, glifXml pio g = .ok e → Prints xml e)
    (hn : ∀ g ∈ gs, '/' ∉ g.name) (hnd : (gs.map (·.name)).Nodup)
    (hcl : ∀ g ∈ gs, ∀ c ∈ g.components.vec, ∃ h ∈ gs, h.name = c.base)
    (d : Disk) (hw : ∀ p, d.writable p = true) (hd : ∀ p q, d.place p = d.place q → p = q) :
    ∃ d', writeFont pio xml dir gs d = .ok d' ∧
      ∀ g ∈ gs, ∃ g', readFile mid pio xml d' {} (fileIn dir g.name) = .ok g' ∧ InFont dir g g' ∧
        ∀ k : Glif PD D, ∀ d'', writeFile pio xml k (fileIn dir k.name) d' = .ok d'' →
          ¬ Relation.ReflTransGen (RefersTo gs) g.name k.name →
          readFile mid pio xml d'' {} (fileIn dir g.name) = .ok g' ∧
          ∀ n, g'.flattened (fun c => c.toComponent mid pio (d''.files xml)) n =
            g'.flattened (fun c => c.toComponent mid pio (d'.files xml)) n := by
  have hb : ∀ g ∈ gs, ∀ c ∈ g.components.vec, '/' ∉ c.base := by
    intro g hg c hc
    obtain ⟨h, hh, e⟩ := hcl g hg c hc
    exact e ▸ hn h hh
  obtain ⟨d', w, pl, -, r⟩ := C82_font mid pio xml dir gs hs hx (fun g hg => ⟨hn g hg, hb g hg⟩) d (fun g _ => hw _) (by
    rw [List.Nodup, List.pairwise_map] at hnd
    exact hnd.imp fun {g h} hne he => hne (fileIn_inj (hd _ _ he)))
  refine ⟨d', w, fun g hg => ?_⟩
  obtain ⟨g', hg', hi⟩ := r g hg
  refine ⟨g', hg', hi, fun k d'' hk hne => ?_⟩
  obtain ⟨t, rfl⟩ : ∃ t, d'' = d'.write (fileIn dir k.name) t := by
    unfold writeFile at hk
    match ht : writeText pio xml k with
    | .err e => rw [ht] at hk; cases hk
    | .panic => rw [ht] at hk; cases hk
    | .ok t =>
      rw [ht, Out.bind_ok] at hk
      split at hk
      · cases hk; exact ⟨t, rfl⟩
      · cases hk
  have other : ∀ b, Relation.ReflTransGen (RefersTo gs) g.name b → d'.place (fileIn dir b) ≠ d'.place (fileIn dir k.name) := by
    intro b hb he
    rw [pl] at he
    exact hne (fileIn_inj (hd _ _ he) ▸ hb)
  constructor
  · rw [← hg']
    unfold readFile readFromFilename
    simp only [Disk.files, Disk.read, Disk.write, if_neg (other _ .refl)]
  · intro n
    refine C134_write mid pio xml d' g' _ t (fun q hq => ?_) n
    obtain ⟨c, hc, e, he, hq⟩ := hq
    obtain ⟨b1, b2, -⟩ := inFont_bases hi
    obtain ⟨c', hc', ec⟩ := base_mem b1 hc
    obtain ⟨h, hh, eh⟩ := hcl g hg c' hc'
    obtain ⟨ge, re⟩ := good_reach (fontIn_read r) hcl ⟨b2 c hc, h, hh, eh.trans ec⟩ he
    rw [ge.1] at hq
    cases hq
    exact other _ (.head ⟨g, hg, rfl, c', hc', ec⟩ re)

/-- In the font of two glyphs, one of which refers to the other, the other does not refer to the first. -/
example : ¬ Relation.ReflTransGen (RefersTo [Sample.gA D, Sample.ga D]) (Sample.ga D).name (Sample.gA D).name := by
  intro h
  rcases Relation.ReflTransGen.cases_head h with h | ⟨b, hb, -⟩
  · exact absurd h (by show "a".toList ≠ "A".toList; decide)
  · obtain ⟨g, hg, hn, c, hc, -⟩ := hb
    rw [List.mem_cons, List.mem_singleton] at hg
    rcases hg with rfl | rfl
    · exact absurd hn (by show "A".toList ≠ "a".toList; decide)
    · cases hc

/-- In the sample font of C20 the components `c` and `a` need the file of `b`, to which only `c` refers, and so cannot be flattened without
it; they can be flattened with it (`sample_resolves`). -/
theorem sample_uses (mid : IOF → IOF → IOF) (pio : PlistIO D) :
    FileUsed Unit mid pio (fontOf pio (sfont D)) (srefs ["c", "a"]).vec (sfile "b") := by
  have hc := holds_fontOf (pio := pio) (mid := mid) (l := sfont D) (f := sfile "c") (g := sglyph D "c" none [sref "b" 5, sref "a" 100]) rfl
    (sglyph_saveable pio _ _ _ (Or.inl rfl))
  refine ⟨located (sfile "x") (sref "c" 0), by simp [srefs], located (sfile "c") (sref "b" 5), .single ?_, rfl⟩
  exact ⟨sfile "c", _, rfl, hc, sref "b" 5, by simp [saved, sglyph, savedComponent_sref], rfl⟩

example (mid : IOF → IOF → IOF) (pio : PlistIO D) (n : Nat) (f : Glif Unit D) (rects : List ComponentRect) :
    ({ components := srefs ["c", "a"] } : Glif Unit D).flattened
      (fun c => c.toComponent mid pio (fun p => if p = sfile "b" then none else fontOf pio (sfont D) p)) n ≠ some (.ok (f, rects)) :=
  C134_needed (files := fontOf pio (sfont D)) _ (sfile "b") (sample_uses mid pio) (fun q hq _ => if_neg hq)
    (fun k ⟨e, he, _⟩ => by simp at he) n f rects

end GP
