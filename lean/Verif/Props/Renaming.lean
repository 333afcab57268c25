import Verif.Spec.Renaming
import Verif.Props.FontDraw
/-!
# C136: what a font draws does not depend on the names of its glyphs
-/
open Fl Fl.Text
namespace GP
open Spec
variable {PD D : Type}

/-! ## Files hold exactly what was saved -/

theorem saveable_renamed {pio : PlistIO D} {g : Glif PD D} (ρ : Str → Str) (h : Saveable pio g) : Saveable pio (renamed ρ g) :=
  ⟨h.contours, h.width, h.classes, h.lib⟩

theorem saved_renamed (ρ : Str → Str) (g : Glif PD D) : saved (renamed ρ g) = renamed ρ (saved g) := by
  unfold saved renamed
  simp only [List.map_map]
  have : savedComponent ∘ renamedComponent ρ = renamedComponent ρ ∘ savedComponent := rfl
  rw [this]
  congr 1
  simp [List.isEmpty_map]

/-- A font that was saved is in its files. -/
theorem font_holds (mid : IOF → IOF → IOF) (pio : PlistIO D) (xml : XmlIO) (dir : Path) (gs : List (Glif PD D))
    (hs : ∀ g ∈ gs, Saveable pio g) (hx : ∀ g ∈ gs, ∀ e, glifXml pio g = .ok e → Prints xml e) (hn : ∀ g ∈ gs, '/' ∉ g.name)
    (d : Disk) (hw : ∀ p, d.writable p = true)
    (hd : gs.Pairwise fun g h => d.place (fileIn dir g.name) ≠ d.place (fileIn dir h.name)) :
    ∃ d', writeFont pio xml dir gs d = .ok d' ∧ (∀ p, (∀ g ∈ gs, d.place p ≠ d.place (fileIn dir g.name)) → d'.read p = d.read p) ∧
      ∀ g ∈ gs, Holds PD mid pio (d'.files xml) (fileIn dir g.name) (saved g) := by
  induction gs generalizing d with
  | nil => exact ⟨d, rfl, fun _ _ => rfl, fun g hg => (nomatch hg)⟩
  | cons g gs ih =>
    rw [List.pairwise_cons] at hd
    have hg := glif_trip mid pio g (hs g List.mem_cons_self)
    match he : glifXml pio g with
    | .err er => rw [he] at hg; cases hg
    | .panic => rw [he] at hg; cases hg
    | .ok e =>
      rw [he, Out.bind_ok] at hg
      obtain ⟨t, ht, e', hp, hsd⟩ := hx g List.mem_cons_self e he
      obtain ⟨d', w, o, r⟩ := ih (fun h hh => hs h (List.mem_cons_of_mem _ hh)) (fun h hh => hx h (List.mem_cons_of_mem _ hh))
        (fun h hh => hn h (List.mem_cons_of_mem _ hh)) (d.write (fileIn dir g.name) t) hw hd.2
      refine ⟨d', ?_, fun p hp => ?_, fun h hh => ?_⟩
      · unfold writeFont
        rw [push_file (hn g List.mem_cons_self)]
        unfold writeFile writeText
        rw [he, Out.bind_ok, ht, Out.ofOption_some, Out.bind_ok, if_pos (hw _), Out.bind_ok]
        exact w
      · rw [o p fun h hh => hp h (List.mem_cons_of_mem _ hh)]
        unfold Disk.read Disk.write
        exact if_neg (hp g List.mem_cons_self)
      · rcases List.mem_cons.1 hh with rfl | hh
        · refine ⟨e', ?_, by rw [← C09_same_document mid pio {} e e' hsd]; exact hg⟩
          unfold Disk.files
          rw [o _ fun k hk => hd.1 k hk]
          unfold Disk.read Disk.write
          simp only [if_true, Option.map_some, hp]
        · exact r h hh

theorem readFile_of_holds {mid : IOF → IOF → IOF} {pio : PlistIO D} {xml : XmlIO} {d : Disk} {f : Path} {g : Glif PD D}
    (h : Holds PD mid pio (d.files xml) f g) :
    readFile mid pio xml d {} f = .ok { g with filename := some f, components := { g.components with vec := g.components.vec.map (located f) } } := by
  obtain ⟨e, he, hg⟩ := h
  unfold readFile readFromFilename
  rw [he, Out.ofOption_some, Out.bind_ok, Out.ofOption_some, Out.bind_ok, hg, Out.bind_ok]
  rfl

/-! ## Trees that are the same but for the names -/

/-- Nodes at the same places have the same contours and matrices, and corresponding names. -/
inductive TreeButNames (ρ : Str → Str) : Tree (Component PD D) → Tree (Component PD D) → Prop
  | mk {t u : Tree (Component PD D)} (name : u.data.glif.name = ρ t.data.glif.name) (outline : u.data.glif.outline = t.data.glif.outline)
      (matrix : u.data.matrix = t.data.matrix) (children : List.Forall₂ (TreeButNames ρ) t.children u.children) : TreeButNames ρ t u

theorem TreeButNames.name_eq {ρ : Str → Str} {t u : Tree (Component PD D)} (h : TreeButNames ρ t u) :
    u.data.glif.name = ρ t.data.glif.name := by
  obtain ⟨h, -⟩ := h
  exact h

theorem applyComponentRect_congr {above : List Affine} {s : Rect × Outline PD} {c c' : Component PD D} (ho : c'.glif.outline = c.glif.outline)
    (hm : c'.matrix = c.matrix) : applyComponentRect above s c' = applyComponentRect above s c := by
  unfold applyComponentRect
  rw [ho, hm]

theorem flattenTree_names {ρ : Str → Str} {t u : Tree (Component PD D)} (h : TreeButNames ρ t u) (o : Outline PD) :
    flattenTree u o = flattenTree t o := by
  obtain ⟨-, ho, hm, hc⟩ := h
  unfold flattenTree
  rw [applyComponentRect_congr ho hm, hm]
  have : ∀ {l l' : List (Tree (Component PD D))}, List.Forall₂ (TreeButNames ρ) l l' → ∀ s : Rect × Outline PD,
      l'.foldl (fun s child => applyComponentRect [t.data.matrix] s child.data) s =
        l.foldl (fun s child => applyComponentRect [t.data.matrix] s child.data) s := by
    intro l l' hl
    induction hl with
    | nil => exact fun _ => rfl
    | cons hab _ ih =>
      intro s
      obtain ⟨-, ho, hm, -⟩ := hab
      rw [List.foldl_cons, List.foldl_cons, applyComponentRect_congr ho hm, ih]
  exact this (List.forall₂_reverse_iff.2 hc) _

theorem flattenForest_names {ρ : Str → Str} {ts us : List (Tree (Component PD D))} (h : List.Forall₂ (TreeButNames ρ) ts us) :
    flattenForest us = ((flattenForest ts).1, (flattenForest ts).2.map fun r => { r with name := ρ r.name }) := by
  unfold flattenForest
  have : ∀ {ts us : List (Tree (Component PD D))}, List.Forall₂ (TreeButNames ρ) ts us → ∀ (s : Outline PD × List ComponentRect),
      us.foldl (fun s t => ((flattenTree t s.1).2, s.2 ++ [{ rect := (flattenTree t s.1).1, name := t.data.glif.name }]))
          (s.1, s.2.map fun r => { r with name := ρ r.name }) =
        ((ts.foldl (fun s t => ((flattenTree t s.1).2, s.2 ++ [{ rect := (flattenTree t s.1).1, name := t.data.glif.name }])) s).1,
          (ts.foldl (fun s t => ((flattenTree t s.1).2, s.2 ++ [{ rect := (flattenTree t s.1).1, name := t.data.glif.name }])) s).2.map
            fun r => { r with name := ρ r.name }) := by
    intro ts us hl
    induction hl with
    | nil => exact fun _ => rfl
    | cons hab _ ih =>
      intro s
      rw [List.foldl_cons, List.foldl_cons, flattenTree_names hab, hab.name_eq, ← ih]
      simp
  exact this h ([], [])

/-- Outcomes that are the same up to a relation. -/
inductive RunRel {α β : Type} (r : α → β → Prop) : Run α → Run β → Prop
  | endless : RunRel r none none
  | err (e : GErr) : RunRel r (some (.err e)) (some (.err e))
  | panic : RunRel r (some .panic) (some .panic)
  | ok {a : α} {b : β} (h : r a b) : RunRel r (some (.ok a)) (some (.ok b))

theorem RunRel.bind {α β γ δ : Type} {r : α → β → Prop} {q : γ → δ → Prop} {x : Run α} {y : Run β} {f : α → Run γ} {g : β → Run δ}
    (h : RunRel r x y) (hfg : ∀ a b, r a b → RunRel q (f a) (g b)) : RunRel q (Run.bind x f) (Run.bind y g) := by
  cases h with
  | endless => exact .endless
  | err e => exact .err e
  | panic => exact .panic
  | ok h => exact hfg _ _ h

theorem RunRel.mapM {α β γ δ : Type} {r : α → β → Prop} {q : γ → δ → Prop} {f : α → Run γ} {g : β → Run δ} {l : List α} {m : List β}
    (h : List.Forall₂ r l m) (hfg : ∀ a b, r a b → RunRel q (f a) (g b)) :
    RunRel (List.Forall₂ q) (Run.mapM f l) (Run.mapM g m) := by
  induction h with
  | nil => exact .ok .nil
  | cons hab _ ih =>
    exact (hfg _ _ hab).bind fun _ _ hcd => ih.bind fun _ _ hcs => .ok (.cons hcd hcs)

/-! ## The two fonts -/

section
variable {mid : IOF → IOF → IOF} {pio : PlistIO D} {files files' : Files} {dir dir' : Path} {gs : List (Glif PD D)} {ρ : Str → Str}

/-- A reference to a glyph of the font, in its place, and one to the renamed glyph, in its place. -/
def Twins (dir dir' : Path) (gs : List (Glif PD D)) (ρ : Str → Str) (c c' : GlifComponent) : Prop :=
  c'.base = ρ c.base ∧ c.filename = some (fileIn dir c.base) ∧ c'.filename = some (fileIn dir' c'.base) ∧ c'.m = c.m ∧
    ∃ h ∈ gs, h.name = c.base

/-- The components of a glyph that was saved, and those of the renamed one. -/
theorem twins_located (hn : ∀ g ∈ gs, '/' ∉ g.name ∧ '/' ∉ ρ g.name) (hcl : ∀ g ∈ gs, ∀ c ∈ g.components.vec, ∃ h ∈ gs, h.name = c.base)
    {g : Glif PD D} (hg : g ∈ gs) :
    List.Forall₂ (Twins dir dir' gs ρ) ((saved g).components.vec.map (located (fileIn dir g.name)))
      ((saved (renamed ρ g)).components.vec.map (located (fileIn dir' (ρ g.name)))) := by
  rw [saved_renamed, List.forall₂_map_left_iff, List.forall₂_map_right_iff]
  show List.Forall₂ _ (g.components.vec.map savedComponent) ((g.components.vec.map savedComponent).map (renamedComponent ρ))
  rw [List.forall₂_map_right_iff, List.forall₂_map_left_iff, List.forall₂_map_right_iff]
  refine List.forall₂_same.2 fun c hc => ?_
  obtain ⟨h, hh, e⟩ := hcl g hg c hc
  have h1 := (hn h hh).1
  have h2 := (hn h hh).2
  rw [e] at h1 h2
  exact ⟨rfl, congrArg some (componentFile_in h1), congrArg some (componentFile_in h2), rfl, h, hh, e⟩

theorem twins_build (hF : ∀ g ∈ gs, Holds PD mid pio files (fileIn dir g.name) (saved g))
    (hF' : ∀ g ∈ gs, Holds PD mid pio files' (fileIn dir' (ρ g.name)) (saved (renamed ρ g)))
    (hn : ∀ g ∈ gs, '/' ∉ g.name ∧ '/' ∉ ρ g.name) (hcl : ∀ g ∈ gs, ∀ c ∈ g.components.vec, ∃ h ∈ gs, h.name = c.base)
    (hinj : ∀ g ∈ gs, ∀ h ∈ gs, ρ g.name = ρ h.name → g.name = h.name) (n : Nat) (u : List Str) (hu : ∀ b ∈ u, ∃ h ∈ gs, h.name = b)
    (c c' : GlifComponent) (h : Twins dir dir' gs ρ c c') :
    RunRel (TreeButNames ρ) (buildRoot (fun c => (c.toComponent mid pio files : R (Component PD D))) n u c)
      (buildRoot (fun c => (c.toComponent mid pio files' : R (Component PD D))) n (u.map ρ) c') := by
  induction n generalizing u c c' with
  | zero =>
    obtain ⟨hb, hf, hf', -, g, hg, hgn⟩ := h
    unfold buildRoot
    have h1 := hF g hg
    have h2 := hF' g hg
    rw [hgn] at h1 h2
    simp only [toComponent_ok.2 ⟨_, _, hf, h1, rfl⟩, toComponent_ok.2 ⟨_, _, hf', hb ▸ h2, rfl⟩]
    exact .endless
  | succ n ih =>
    obtain ⟨hb, hf, hf', hm, g, hg, hgn⟩ := h
    have h1 := hF g hg
    have h2 := hF' g hg
    have ht := twins_located (dir := dir) (dir' := dir') hn hcl hg
    rw [hgn] at h1 h2 ht
    rw [← hb] at h2 ht
    unfold buildRoot
    simp only [toComponent_ok.2 ⟨_, _, hf, h1, rfl⟩, toComponent_ok.2 ⟨_, _, hf', h2, rfl⟩, Run.bind_ok, buildTree_succ]
    refine RunRel.bind (RunRel.mapM (q := TreeButNames ρ) ht fun k k' hk => ?_) fun ts us htu => .ok ?_
    · obtain ⟨x, hx, hxn⟩ := hk.2.2.2.2
      have hmem : k'.base ∈ u.map ρ ↔ k.base ∈ u := by
        rw [hk.1, List.mem_map]
        constructor
        · rintro ⟨b, hbu, e⟩
          obtain ⟨y, hy, rfl⟩ := hu b hbu
          rw [← hxn] at e ⊢
          rw [← hinj y hy x hx e]
          exact hbu
        · exact fun hbu => ⟨_, hbu, rfl⟩
      unfold buildKid
      by_cases hku : k.base ∈ u
      · rw [if_pos hku, if_pos (hmem.2 hku)]
        exact .err _
      · rw [if_neg hku, if_neg (fun x => hku (hmem.1 x)), hk.1]
        have := ih (k.base :: u) (fun b hbu => (List.mem_cons.1 hbu).elim (fun e => ⟨x, hx, hxn.trans e.symm⟩) (hu b)) k k' hk
        exact this
    · refine ⟨hb, ?_, ?_, htu⟩
      · show (saved (renamed ρ g)).outline = (saved g).outline
        rw [saved_renamed]
        rfl
      · show c'.m.affine = c.m.affine
        rw [hm]

end

/-- **C136.** Let the glyphs of a font be renamed, such that different glyphs still have different names, together with what refers to
them, and let both fonts be saved, perhaps to different places.  Then each glyph and the renamed one, read from their files, are flattened with
the same outcome but for the names. -/
theorem C136_renamed (mid : IOF → IOF → IOF) (pio : PlistIO D) (xml xml' : XmlIO) (dir dir' : Path) (gs : List (Glif PD D)) (ρ : Str → Str)
    (hs : ∀ g ∈ gs, Saveable pio g) (hx : ∀ g ∈ gs, ∀ e, glifXml pio g = .ok e → Prints xml e)
    (hx' : ∀ g ∈ gs, ∀ e, glifXml pio (renamed ρ g) = .ok e → Prints xml' e)
    (hn : ∀ g ∈ gs, '/' ∉ g.name ∧ '/' ∉ ρ g.name) (hnd : (gs.map (·.name)).Nodup) (hnd' : (gs.map fun g => ρ g.name).Nodup)
    (hcl : ∀ g ∈ gs, ∀ c ∈ g.components.vec, ∃ h ∈ gs, h.name = c.base)
    (d d' : Disk) (hw : ∀ p, d.writable p = true ∧ d'.writable p = true)
    (hd : ∀ p q, (d.place p = d.place q → p = q) ∧ (d'.place p = d'.place q → p = q)) :
    ∃ e e', writeFont pio xml dir gs d = .ok e ∧ writeFont pio xml' dir' (gs.map (renamed ρ)) d' = .ok e' ∧
      ∀ g ∈ gs, ∃ f f' : Glif PD D, readFile mid pio xml e {} (fileIn dir g.name) = .ok f ∧ readFile mid pio xml' e' {} (fileIn dir' (ρ g.name)) = .ok f' ∧
        ∀ n, SameButNames ρ (fileIn dir' (ρ g.name)) (f.flattened (fun c => c.toComponent mid pio (e.files xml)) n)
          (f'.flattened (fun c => c.toComponent mid pio (e'.files xml')) n) := by
  obtain ⟨e, hwe, -, hF⟩ := font_holds mid pio xml dir gs hs hx (fun g hg => (hn g hg).1) d (fun p => (hw p).1) (by
    rw [List.Nodup, List.pairwise_map] at hnd
    exact hnd.imp fun {g h} hne he => hne (fileIn_inj ((hd _ _).1 he)))
  obtain ⟨e', hwe', -, hF'⟩ := font_holds mid pio xml' dir' (gs.map (renamed ρ))
    (fun k hk => by obtain ⟨g, hg, rfl⟩ := List.mem_map.1 hk; exact saveable_renamed ρ (hs g hg))
    (fun k hk => by obtain ⟨g, hg, rfl⟩ := List.mem_map.1 hk; exact hx' g hg)
    (fun k hk => by obtain ⟨g, hg, rfl⟩ := List.mem_map.1 hk; exact (hn g hg).2) d' (fun p => (hw p).2) (by
      rw [List.Nodup, List.pairwise_map] at hnd'
      rw [List.pairwise_map]
      exact hnd'.imp fun {g h} hne he => hne (fileIn_inj ((hd _ _).2 he)))
  have hF2 : ∀ g ∈ gs, Holds PD mid pio (e'.files xml') (fileIn dir' (ρ g.name)) (saved (renamed ρ g)) :=
    fun g hg => hF' _ (List.mem_map_of_mem hg)
  have hinj : ∀ g ∈ gs, ∀ h ∈ gs, ρ g.name = ρ h.name → g.name = h.name := fun g hg h hh he => by
    rw [nodup_name hnd' hg hh he]
  refine ⟨e, e', hwe, hwe', fun g hg => ⟨_, _, readFile_of_holds (hF g hg), readFile_of_holds (hF2 g hg), fun n => ?_⟩⟩
  unfold Glif.flattened
  simp only [forest_eq]
  have key := RunRel.mapM (twins_located (dir := dir) (dir' := dir') hn hcl hg)
    fun c c' hc => twins_build hF hF2 hn hcl hinj n [] (fun b hb => (nomatch hb)) c c' hc
  simp only [(show (saved g).components.uniques = [] from rfl), (show (saved (renamed ρ g)).components.uniques = [] from rfl)]
  rw [List.map_nil] at key
  generalize Run.mapM _ _ = x at key ⊢
  generalize Run.mapM _ _ = y at key ⊢
  cases key with
  | endless => exact .endless
  | err e => exact .err e
  | panic => exact .panic
  | @ok ts us h =>
    simp only [Run.bind_ok, flattenForest_names h, saved_renamed]
    exact .ok _ _

theorem sayable_renamed {pio : PlistIO D} {g : Glif PD D} {ρ : Str → Str} (h : SayableTexts pio g) (hn : AttrText (ρ g.name))
    (hc : ∀ c ∈ g.components.vec, AttrText (ρ c.base)) : SayableTexts pio (renamed ρ g) := by
  refine ⟨hn, h.anchors, h.points, ?_, h.images, h.guidelines, h.note, h.plist, h.xml⟩
  intro c hc'
  obtain ⟨k, hk, rfl⟩ := List.mem_map.1 hc'
  exact ⟨hc k hk, (h.components k hk).2⟩

/-- **C136.** The same with the printer and the parser of the XML library as they are, when the texts of the glyphs and the new names can be
said in XML. -/
theorem C136_text (mid : IOF → IOF → IOF) (pio : PlistIO D) (lay lay' : XmlText.Layout) (hl : Lays lay) (hl' : Lays lay') (dir dir' : Path)
    (gs : List (Glif PD D)) (ρ : Str → Str)
    (hs : ∀ g ∈ gs, Saveable pio g) (hx : ∀ g ∈ gs, SayableTexts pio g ∧ AttrText (ρ g.name) ∧ ∀ n, g.note = some n → ¬ Blank n)
    (hn : ∀ g ∈ gs, '/' ∉ g.name ∧ '/' ∉ ρ g.name) (hnd : (gs.map (·.name)).Nodup) (hnd' : (gs.map fun g => ρ g.name).Nodup)
    (hcl : ∀ g ∈ gs, ∀ c ∈ g.components.vec, ∃ h ∈ gs, h.name = c.base)
    (d d' : Disk) (hw : ∀ p, d.writable p = true ∧ d'.writable p = true)
    (hd : ∀ p q, (d.place p = d.place q → p = q) ∧ (d'.place p = d'.place q → p = q)) :
    ∃ e e', writeFont pio (XmlText.io lay) dir gs d = .ok e ∧ writeFont pio (XmlText.io lay') dir' (gs.map (renamed ρ)) d' = .ok e' ∧
      ∀ g ∈ gs, ∃ f f' : Glif PD D, readFile mid pio (XmlText.io lay) e {} (fileIn dir g.name) = .ok f ∧
        readFile mid pio (XmlText.io lay') e' {} (fileIn dir' (ρ g.name)) = .ok f' ∧
        ∀ n, SameButNames ρ (fileIn dir' (ρ g.name)) (f.flattened (fun c => c.toComponent mid pio (e.files (XmlText.io lay))) n)
          (f'.flattened (fun c => c.toComponent mid pio (e'.files (XmlText.io lay'))) n) := by
  refine C136_renamed mid pio _ _ dir dir' gs ρ hs (fun g hg e he => C97_prints pio lay hl g (hx g hg).1 (hx g hg).2.2 e he)
    (fun g hg e he => C97_prints pio lay' hl' _ (sayable_renamed (hx g hg).1 (hx g hg).2.1 fun c hc => ?_) (hx g hg).2.2 e he)
    hn hnd hnd' hcl d d' hw hd
  obtain ⟨h, hh, e⟩ := hcl g hg c hc
  exact e ▸ (hx h hh).2.1

/-- The font of two glyphs, an underscore put before their names, and an empty file system meet the hypotheses. -/
example (pio : PlistIO D) : (∀ g ∈ [Sample.gA D, Sample.ga D], Saveable pio g ∧
      (SayableTexts pio g ∧ AttrText ('_' :: g.name) ∧ ∀ n, g.note = some n → ¬ Blank n) ∧ ('/' ∉ g.name ∧ '/' ∉ '_' :: g.name) ∧
      ∀ c ∈ g.components.vec, ∃ h ∈ [Sample.gA D, Sample.ga D], h.name = c.base) ∧
    ([Sample.gA D, Sample.ga D].map (·.name)).Nodup ∧ ([Sample.gA D, Sample.ga D].map fun g => '_' :: g.name).Nodup ∧
    ∃ d : Disk, ∀ p q, d.writable p = true ∧ (d.place p = d.place q → p = q) := by
  refine ⟨fun g hg => ⟨((Sample.two_saveable pio).1 g hg).1, ?_, ?_, ?_⟩, (Sample.two_saveable pio).2.1, by simp [Sample.gA, Sample.ga],
    ⟨id, fun _ => none, fun _ => true⟩, fun p q => ⟨rfl, id⟩⟩
  · refine ⟨(Sample.two_sayable pio g hg).1, ?_, (Sample.two_sayable pio g hg).2⟩
    rw [List.mem_cons, List.mem_singleton] at hg
    rcases hg with rfl | rfl
    · exact attr_ascii (s := "_A".toList) (by decide +kernel)
    · exact attr_ascii (s := "_a".toList) (by decide +kernel)
  · have := ((Sample.two_saveable pio).1 g hg).2.2.1
    exact ⟨this, by simp [this]⟩
  · intro c hc
    rw [List.mem_cons, List.mem_singleton] at hg
    rcases hg with rfl | rfl
    · rw [show (Sample.gA D).components.vec = [{ GlifComponent.new with base := "a".toList }] from rfl, List.mem_singleton] at hc
      subst hc
      exact ⟨Sample.ga D, by simp, rfl⟩
    · cases hc

end GP
