import Verif.Lemmas.Component
import Verif.Props.Strings
import Verif.Props.SampleFont
import Verif.Lemmas.FileRead
/-!
# Resolving components (C20, C21)
-/
open Fl
namespace GP
open Spec (named)
variable {PD D : Type}

section
variable {mid : IOF → IOF → IOF} {pio : PlistIO D} {files : Files}

/-- In a font with finitely many files only finitely many glyph names are referred to. -/
theorem finite_names (fs : List Path) (hfin : ∀ f, files f ≠ none → f ∈ fs) : ∃ B : List Str,
    ∀ (c : GlifComponent) (comp : Component PD D), c.toComponent mid pio files = .ok comp →
      ∀ d ∈ comp.glif.components.vec, d.base ∈ B := by
  have key : ∀ fs : List Path, ∃ B : List Str, ∀ f ∈ fs, ∀ g : Glif PD D, Spec.Holds PD mid pio files f g →
      ∀ d ∈ g.components.vec, d.base ∈ B := by
    intro fs
    induction fs with
    | nil => exact ⟨[], fun f hf => nomatch hf⟩
    | cons f fs ih =>
      obtain ⟨B, hB⟩ := ih
      by_cases h : ∃ g : Glif PD D, Spec.Holds PD mid pio files f g
      · obtain ⟨g, hg⟩ := h
        refine ⟨g.components.vec.map (·.base) ++ B, ?_⟩
        intro f' hf' g' hg' d hd
        rcases List.mem_cons.1 hf' with rfl | hf'
        · have : g' = g := by
            obtain ⟨e, he, hr⟩ := hg
            obtain ⟨e', he', hr'⟩ := hg'
            rw [he] at he'
            cases he'
            rw [hr] at hr'
            cases hr'
            rfl
          subst this
          exact List.mem_append_left _ (List.mem_map_of_mem hd)
        · exact List.mem_append_right _ (hB f' hf' g' hg' d hd)
      · refine ⟨B, ?_⟩
        intro f' hf' g' hg' d hd
        rcases List.mem_cons.1 hf' with rfl | hf'
        · exact absurd ⟨g', hg'⟩ h
        · exact hB f' hf' g' hg' d hd
  obtain ⟨B, hB⟩ := key fs
  refine ⟨B, ?_⟩
  intro c comp hc d hd
  obtain ⟨f, g, hf, hg, rfl⟩ := toComponent_ok.1 hc
  obtain ⟨d', hd', rfl⟩ := List.mem_map.1 hd
  have hmem : f ∈ fs := hfin f (by obtain ⟨e, he, -⟩ := hg; rw [he]; simp)
  exact hB f hmem g hg d' hd'

/-- **C20**, termination: in a font with finitely many files, whatever its references are and
whatever names are already marked, resolution ends: from some depth of recursion on, the outcome no
longer changes. -/
theorem C20_terminates (fs : List Path) (hfin : ∀ f, files f ≠ none → f ∈ fs) (gcs : GlifComponents) :
    ∃ n, ∃ r : R (List (Tree (Component PD D))), ∀ m, n ≤ m →
      gcs.forest (fun c => c.toComponent mid pio files) m = some r := by
  obtain ⟨B, hB⟩ := finite_names (PD := PD) (mid := mid) (pio := pio) fs hfin
  have h := forest_ne_none (fun c => (c.toComponent mid pio files : R (Component PD D))) B hB gcs
  obtain ⟨r, hr⟩ := Option.ne_none_iff_exists'.1 h
  exact ⟨B.length + 1, r, fun m hm => forest_mono _ hm hr⟩

/-- When all reachable files can be read, a resolution that ends succeeds or gives the cyclic
error. -/
theorem forest_outcomes {gcs : GlifComponents} (hh : Spec.Healthy PD mid pio files gcs.vec) {n : Nat}
    {r : R (List (Tree (Component PD D)))}
    (h : gcs.forest (fun c => c.toComponent mid pio files) n = some r) :
    (∃ ts, r = .ok ts) ∨ (r = .err .componentsCyclical ∧
      ∃ c ∈ gcs.vec, ∃ y z, Spec.Reach PD mid pio files c y ∧ Spec.Refers PD mid pio files y z ∧
        (z.base ∈ gcs.uniques ∨ ∃ w, Spec.Reach PD mid pio files c w ∧ Spec.Reach PD mid pio files w y ∧
          w.base = z.base)) := by
  rw [forest_eq] at h
  have root : ∀ c ∈ gcs.vec, ∀ r', buildRoot (fun c => (c.toComponent mid pio files : R (Component PD D))) n
      gcs.uniques c = some r' → (∃ t, r' = .ok t) ∨ (r' = .err .componentsCyclical ∧
      ∃ y z, Spec.Reach PD mid pio files c y ∧ Spec.Refers PD mid pio files y z ∧
        (z.base ∈ gcs.uniques ∨ ∃ w, Spec.Reach PD mid pio files c w ∧ Spec.Reach PD mid pio files w y ∧
          w.base = z.base)) := by
    intro c hc r' hr'
    obtain ⟨comp, hcomp⟩ := resolvable_iff.1 (hh c hc c Relation.ReflTransGen.refl)
    unfold buildRoot at hr'
    simp only [hcomp, Run.bind_ok] at hr'
    rcases buildTree_fails hcomp (hh c hc) hr' with h1 | ⟨h1, y, z, h2, h3, h4⟩
    · exact Or.inl h1
    · refine Or.inr ⟨h1, y, z, h2, h3, ?_⟩
      rcases h4 with h4 | ⟨w, h4, h5⟩
      · exact Or.inl h4
      · exact Or.inr ⟨w, h4.to_reflTransGen, h5⟩
  match r with
  | .ok ts => exact Or.inl ⟨ts, rfl⟩
  | .err e =>
    obtain ⟨c, hc, hce⟩ := Run.mapM_err h
    rcases root c hc _ hce with ⟨t, ht⟩ | ⟨h1, h2⟩
    · cases ht
    · cases h1
      exact Or.inr ⟨rfl, c, hc, h2⟩
  | .panic =>
    obtain ⟨c, hc, hce⟩ := Run.mapM_panic h
    rcases root c hc _ hce with ⟨t, ht⟩ | ⟨h1, h2⟩
    · cases ht
    · cases h1

theorem forall₂_mem {α β : Type} {r : α → β → Prop} {l : List α} {m : List β} (h : List.Forall₂ r l m) {a : α}
    (ha : a ∈ l) : ∃ b ∈ m, r a b := by
  induction h with
  | nil => cases ha
  | cons h1 _ ih =>
    rcases List.mem_cons.1 ha with rfl | ha
    · exact ⟨_, List.mem_cons_self .., h1⟩
    · obtain ⟨b, hb, h⟩ := ih ha
      exact ⟨b, List.mem_cons_of_mem _ hb, h⟩

/-- A cycle is never resolved, whatever else is wrong with the font. -/
theorem C20_cycle_not_ok {gcs : GlifComponents} (hc : Spec.Cyclic PD mid pio files gcs.vec) (n : Nat)
    (ts : List (Tree (Component PD D))) : gcs.forest (fun c => c.toComponent mid pio files) n ≠ some (.ok ts) := by
  intro h
  rw [forest_eq] at h
  obtain ⟨c, hmem, hall⟩ := cyclic_steps hc
  obtain ⟨t, -, ht⟩ := forall₂_mem (Run.mapM_ok.1 h) hmem
  unfold buildRoot at ht
  match hcc : (c.toComponent mid pio files : R (Component PD D)) with
  | .err e => simp only [hcc] at ht; cases ht
  | .panic => simp only [hcc] at ht; cases ht
  | .ok comp =>
    simp only [hcc, Run.bind_ok] at ht
    obtain ⟨k, d, hk, hs⟩ := hall n
    have := steps_lt hcc ht hs
    omega

/-- **C20**, cycles: in a finite font in which every file that can be reached exists and parses (and a
glyph's name determines its file), resolution fails with the cyclic error exactly if some reachable
glyph refers directly or indirectly to itself, and otherwise succeeds. -/
theorem C20_cycles (fs : List Path) (hfin : ∀ f, files f ≠ none → f ∈ fs) {gcs : GlifComponents}
    (hu : gcs.uniques = []) (hh : Spec.Healthy PD mid pio files gcs.vec)
    (hn : Spec.NamesDetermineFiles PD mid pio files gcs.vec) :
    ∃ n, ∃ r : R (List (Tree (Component PD D))),
      (∀ m, n ≤ m → gcs.forest (fun c => c.toComponent mid pio files) m = some r) ∧
      (r = .err .componentsCyclical ↔ Spec.Cyclic PD mid pio files gcs.vec) ∧
      ((∃ ts, r = .ok ts) ↔ ¬ Spec.Cyclic PD mid pio files gcs.vec) := by
  obtain ⟨n, r, hr⟩ := C20_terminates (PD := PD) (mid := mid) (pio := pio) fs hfin gcs
  have hrn := hr n (Nat.le_refl n)
  have h1 : Spec.Cyclic PD mid pio files gcs.vec → r = .err .componentsCyclical := by
    intro hc
    rcases forest_outcomes hh hrn with ⟨ts, rfl⟩ | ⟨h, -⟩
    · exact absurd hrn (C20_cycle_not_ok hc n ts)
    · exact h
  have h2 : r = .err .componentsCyclical → Spec.Cyclic PD mid pio files gcs.vec := by
    intro he
    rcases forest_outcomes hh hrn with ⟨ts, rfl⟩ | ⟨-, c, hc, y, z, h2, h3, h4⟩
    · cases he
    · rcases h4 with h4 | ⟨w, h4, h5, h6⟩
      · rw [hu] at h4; cases h4
      · exact ⟨c, hc, w, z, h4, Relation.TransGen.tail' h5 h3, hn c hc c hc z w (Relation.ReflTransGen.tail h2 h3) h4 h6.symm⟩
  refine ⟨n, r, hr, ⟨h2, h1⟩, ?_⟩
  constructor
  · rintro ⟨ts, rfl⟩ hc
    cases h1 hc
  · intro hc
    rcases forest_outcomes hh hrn with h | ⟨h, -⟩
    · exact h
    · exact absurd (h2 h) hc

/-- When no reference contains a slash, all files reached lie in one directory. -/
theorem reached_file (f0 : Path) (hf0 : f0.fileName.isSome = true) {gcs : GlifComponents}
    (hslash : ∀ f, ∀ g : Glif PD D, Spec.Holds PD mid pio files f g → ∀ c ∈ g.components.vec, '/' ∉ c.base)
    (htop : ∀ c ∈ gcs.vec, '/' ∉ c.base ∧ c.filename = some (componentFile f0 c.base)) :
    ∀ c ∈ gcs.vec, ∀ d, Spec.Reach PD mid pio files c d →
      d.filename = some { f0 with parts := f0.parts.dropLast ++ [nameToFilename d.base true] } := by
  intro c hc d hd
  obtain ⟨n0, hn0⟩ := Option.isSome_iff_exists.1 hf0
  induction hd with
  | refl =>
    rw [(htop c hc).2, (C19_partial f0 c.base (htop c hc).1 n0 hn0).1]
  | @tail b _ _ h ih =>
    obtain ⟨f, g, hf, hg, d', hd', rfl⟩ := h
    rw [ih] at hf
    cases hf
    have hs := hslash _ g hg d' hd'
    simp only [Spec.located]
    obtain ⟨n1, hn1⟩ : ∃ n1, Path.fileName { f0 with parts := f0.parts.dropLast ++ [nameToFilename b.base true] } = some n1 := by
      unfold Path.fileName
      simp only [List.getLast?_append, List.getLast?_singleton, Option.some_or]
      refine ⟨nameToFilename b.base true, if_neg ?_⟩
      intro h
      have := congrArg List.length h
      rw [nameToFilename_eq] at this
      simp at this
    rw [(C19_partial _ d'.base hs n1 hn1).1]
    simp

/-- When no reference contains a slash, names determine files. -/
theorem names_determine_files (f0 : Path) (hf0 : f0.fileName.isSome = true) {gcs : GlifComponents}
    (hslash : ∀ f, ∀ g : Glif PD D, Spec.Holds PD mid pio files f g → ∀ c ∈ g.components.vec, '/' ∉ c.base)
    (htop : ∀ c ∈ gcs.vec, '/' ∉ c.base ∧ c.filename = some (componentFile f0 c.base)) :
    Spec.NamesDetermineFiles PD mid pio files gcs.vec := by
  intro c hc c' hc' d d' hd hd' hb
  rw [reached_file f0 hf0 hslash htop c hc d hd, reached_file f0 hf0 hslash htop c' hc' d' hd', hb]

/-- **C21.** When resolution succeeds, the forest is the unfolding of the reference graph: node by
node the glyph named by the reference with the matrix of the reference, and as children, in file
order, the resolutions of exactly the references of that glyph. -/
theorem C21_unfolding {gcs : GlifComponents} {n : Nat} {ts : List (Tree (Component PD D))}
    (h : gcs.forest (fun c => c.toComponent mid pio files) n = some (.ok ts)) :
    List.Forall₂ (Spec.Unfolds PD mid pio files) gcs.vec ts := by
  rw [forest_eq] at h
  refine (Run.mapM_ok.1 h).imp ?_
  intro c t ht
  unfold buildRoot at ht
  match hcc : (c.toComponent mid pio files : R (Component PD D)) with
  | .err e => simp only [hcc] at ht; cases ht
  | .panic => simp only [hcc] at ht; cases ht
  | .ok comp =>
    simp only [hcc, Run.bind_ok] at ht
    exact buildTree_unfolds hcc ht

/-- A glyph that was read has no names marked. -/
theorem read_uniques {ped : Pedantry} {root : Element} {g : Glif PD D} (h : readGlif mid pio ped root = .ok g) :
    g.components.uniques = [] := by
  rw [readGlif_pre] at h
  cases e : readPre ped root.name root.get (fun n => named n root.children) with
  | err x => rw [e] at h; cases h
  | panic => rw [e] at h; cases h
  | ok p =>
    rw [e, Out.bind_ok] at h
    cases eo : outlineOfGlif (PD := PD) mid ((p.outline.map Prod.fst).getD []) with
    | err x => rw [eo] at h; cases h
    | panic => rw [eo] at h; cases h
    | ok o => rw [eo] at h; cases h; rfl

/-- **C20** for a glyph loaded from a file: for a finite font whose references contain no slash (so that
all its files lie in one directory) and whose reachable files all exist and parse.  Missing: references
with slashes, for which it is false (`C20_false`). -/
theorem C20_partial (fs : List Path) (hfin : ∀ f, files f ≠ none → f ∈ fs)
    (hslash : ∀ f, ∀ g : Glif PD D, Spec.Holds PD mid pio files f g → ∀ c ∈ g.components.vec, '/' ∉ c.base)
    (f0 : Path) (hf0 : f0.fileName.isSome = true) (g : Glif PD D)
    (hg : readFromFilename mid pio files {} f0 = .ok g) (hh : Spec.Healthy PD mid pio files g.components.vec) :
    ∃ n, ∃ r : R (List (Tree (Component PD D))),
      (∀ m, n ≤ m → g.components.forest (fun c => c.toComponent mid pio files) m = some r) ∧
      (r = .err .componentsCyclical ↔ Spec.Cyclic PD mid pio files g.components.vec) ∧
      ((∃ ts, r = .ok ts) ↔ ¬ Spec.Cyclic PD mid pio files g.components.vec) := by
  unfold readFromFilename at hg
  match hx : files f0 with
  | none => rw [hx] at hg; cases hg
  | some none => rw [hx] at hg; cases hg
  | some (some e) =>
    rw [hx] at hg
    simp only [Out.ofOption_some, Out.bind_ok] at hg
    match hr : (readGlif mid pio {} e : R (Glif PD D)) with
    | .err er => rw [hr] at hg; cases hg
    | .panic => rw [hr] at hg; cases hg
    | .ok g0 =>
      rw [hr] at hg
      simp only [Out.bind_ok, Out.ok.injEq] at hg
      have hholds : Spec.Holds PD mid pio files f0 g0 := ⟨e, hx, hr⟩
      refine C20_cycles fs hfin (by rw [← hg]; exact (read_uniques hr : g0.components.uniques = [])) hh ?_
      refine names_determine_files f0 hf0 hslash ?_
      intro c hc
      rw [← hg] at hc
      obtain ⟨c', hc', rfl⟩ := List.mem_map.1 hc
      exact ⟨hslash f0 g0 hholds c' hc', rfl⟩

/-! ### The hypotheses can be met -/

section samples
variable (mid : IOF → IOF → IOF) (pio : PlistIO D)

/-- References as in the glyph file `x.glif` of the sample fonts. -/
def srefs (ns : List String) : GlifComponents := { vec := ns.map fun n => Spec.located (sfile "x") (sref n 0) }

theorem sample_slash {l : List (Path × Glif Unit D)} (hl : ∀ x ∈ l, Spec.Saveable pio x.2 ∧
      ∀ d ∈ x.2.components.vec, (l.lookup (componentFile x.1 d.base)).isSome = true)
    (hs : ∀ x ∈ l, ∀ d ∈ x.2.components.vec, '/' ∉ d.base) :
    ∀ f, ∀ g : Glif Unit D, Spec.Holds Unit mid pio (fontOf pio l) f g → ∀ c ∈ g.components.vec, '/' ∉ c.base := by
  intro f g hg c hc
  match hlk : l.lookup f with
  | none =>
    obtain ⟨e, he, -⟩ := hg
    unfold fontOf at he
    rw [hlk] at he
    cases he
  | some g0 =>
    have hm := lookup_mem hlk
    rw [holds_fontOf_eq hlk (hl _ hm).1 hg] at hc
    obtain ⟨d, hd, rfl⟩ := List.mem_map.1 hc
    exact hs _ hm d hd

/-- Resolution in the sample font. -/
abbrev sresolve : GlifComponent → R (Component Unit D) := fun c => c.toComponent mid pio (fontOf pio (sfont D))

/-- The tree of a reference to `a`. -/
def treeA (c : GlifComponent) : Tree (Component Unit D) :=
  .node (resolved c (sfile "a") (saved (sglyph D "a" (some [square]) []))) []

/-- The tree of a reference to `b`. -/
def treeB (c : GlifComponent) : Tree (Component Unit D) :=
  .node (resolved c (sfile "b") (saved (sglyph D "b" none [sref "a" 20])))
    [treeA (Spec.located (sfile "b") (sref "a" 20))]

/-- The tree of a reference to `c`. -/
def treeC (c : GlifComponent) : Tree (Component Unit D) :=
  .node (resolved c (sfile "c") (saved (sglyph D "c" none [sref "b" 5, sref "a" 100])))
    [treeB (Spec.located (sfile "c") (sref "b" 5)), treeA (Spec.located (sfile "c") (sref "a" 100))]

theorem root_a (n : Nat) (u : List Str) (c : GlifComponent) (hc : c.filename = some (sfile "a")) :
    buildRoot (sresolve mid pio) (n + 1) u c = some (.ok (treeA c)) := by
  unfold buildRoot sresolve
  rw [font_resolves (g := sglyph D "a" (some [square]) []) hc rfl (sglyph_saveable pio _ _ _ (Or.inr rfl))]
  rfl

theorem kid_of_root (toC : GlifComponent → R (Component PD D)) (n : Nat) (u : List Str) (c : GlifComponent) (h : c.base ∉ u) :
    buildKid toC n u c = buildRoot toC n (c.base :: u) c := by
  unfold buildKid buildRoot
  rw [if_neg h]

theorem root_b (n : Nat) (u : List Str) (c : GlifComponent) (hc : c.filename = some (sfile "b")) (hu : "a".toList ∉ u) :
    buildRoot (sresolve mid pio) (n + 2) u c = some (.ok (treeB c)) := by
  unfold buildRoot sresolve
  rw [font_resolves (g := sglyph D "b" none [sref "a" 20]) hc rfl (sglyph_saveable pio _ _ _ (Or.inl rfl)), Run.bind_ok, buildTree_succ]
  have hv : (resolved c (sfile "b") (saved (sglyph D "b" none [sref "a" 20]))).glif.components.vec =
      [Spec.located (sfile "b") (sref "a" 20)] := by
    show List.map _ (List.map _ _) = _
    simp [sglyph, savedComponent_sref]
  rw [hv]
  simp only [Run.mapM]
  rw [kid_of_root _ _ _ _ (by exact hu), root_a mid pio n _ _ rfl]
  rfl

theorem root_c (n : Nat) (c : GlifComponent) (hc : c.filename = some (sfile "c")) :
    buildRoot (sresolve mid pio) (n + 3) [] c = some (.ok (treeC c)) := by
  unfold buildRoot sresolve
  rw [font_resolves (g := sglyph D "c" none [sref "b" 5, sref "a" 100]) hc rfl (sglyph_saveable pio _ _ _ (Or.inl rfl)), Run.bind_ok, buildTree_succ]
  have hv : (resolved c (sfile "c") (saved (sglyph D "c" none [sref "b" 5, sref "a" 100]))).glif.components.vec =
      [Spec.located (sfile "c") (sref "b" 5), Spec.located (sfile "c") (sref "a" 100)] := by
    show List.map _ (List.map _ _) = _
    simp [sglyph, savedComponent_sref]
  rw [hv]
  simp only [Run.mapM]
  rw [kid_of_root _ _ _ _ (by simp), root_b mid pio n _ _ rfl (by decide),
    kid_of_root _ _ _ _ (by simp), root_a mid pio (n + 1) _ _ rfl]
  rfl

/-- The sample font, with `a` used twice below `c` and once more beside it, resolves. -/
theorem sample_resolves : (srefs ["c", "a"]).forest (sresolve mid pio) 3 =
    some (.ok [treeC (Spec.located (sfile "x") (sref "c" 0)), treeA (Spec.located (sfile "x") (sref "a" 0))]) := by
  rw [forest_eq, Run.mapM_ok]
  exact .cons (root_c mid pio 0 _ rfl) (.cons (root_a mid pio 2 _ _ rfl) .nil)

example : List.Forall₂ (Spec.Unfolds Unit mid pio (fontOf pio (sfont D))) (srefs ["c", "a"]).vec
    [treeC (Spec.located (sfile "x") (sref "c" 0)), treeA (Spec.located (sfile "x") (sref "a" 0))] :=
  C21_unfolding (sample_resolves mid pio)

theorem sfont_noslash : ∀ x ∈ sfont D, ∀ d ∈ x.2.components.vec, '/' ∉ d.base := by
  intro x hx d hd
  simp only [sfont, List.mem_cons, List.not_mem_nil, or_false] at hx
  rcases hx with rfl | rfl | rfl <;> simp only [sglyph, List.mem_cons, List.not_mem_nil, or_false] at hd
  · subst hd; decide
  · rcases hd with rfl | rfl <;> decide

/-- The hypotheses of `C20_cycles`, for a font without a cycle. -/
example : (∀ f, fontOf pio (sfont D) f ≠ none → f ∈ (sfont D).map Prod.fst) ∧
    (srefs ["c", "a"]).uniques = [] ∧
    Spec.Healthy Unit mid pio (fontOf pio (sfont D)) (srefs ["c", "a"]).vec ∧
    Spec.NamesDetermineFiles Unit mid pio (fontOf pio (sfont D)) (srefs ["c", "a"]).vec := by
  refine ⟨fontOf_finite pio _, rfl, font_healthy (sfont_ok pio) ?_, names_determine_files (sfile "x") rfl
    (sample_slash mid pio (sfont_ok pio) sfont_noslash) ?_⟩
  · intro c hc
    simp only [srefs, List.map_cons, List.map_nil, List.mem_cons, List.not_mem_nil, or_false] at hc
    rcases hc with rfl | rfl
    · exact ⟨sfile "c", rfl, rfl⟩
    · exact ⟨sfile "a", rfl, rfl⟩
  · intro c hc
    simp only [srefs, List.map_cons, List.map_nil, List.mem_cons, List.not_mem_nil, or_false] at hc
    rcases hc with rfl | rfl <;> exact ⟨by decide, rfl⟩

/-- The hypotheses of `C20_cycles`, for a font with a cycle, which is indeed `Cyclic`. -/
example : Spec.Healthy Unit mid pio (fontOf pio (cfont D)) (srefs ["p"]).vec ∧
    Spec.NamesDetermineFiles Unit mid pio (fontOf pio (cfont D)) (srefs ["p"]).vec ∧
    Spec.Cyclic Unit mid pio (fontOf pio (cfont D)) (srefs ["p"]).vec := by
  refine ⟨font_healthy (cfont_ok pio) ?_, names_determine_files (sfile "x") rfl
    (sample_slash mid pio (cfont_ok pio) ?_) ?_, ?_⟩
  · intro c hc
    cases List.mem_singleton.1 hc
    exact ⟨sfile "p", rfl, rfl⟩
  · intro x hx d hd
    simp only [cfont, List.mem_cons, List.not_mem_nil, or_false] at hx
    rcases hx with rfl | rfl <;> (cases List.mem_singleton.1 hd; decide)
  · intro c hc
    cases List.mem_singleton.1 hc
    exact ⟨by decide, rfl⟩
  · have hp := holds_fontOf (mid := mid) (l := cfont D) (f := sfile "p") (g := sglyph D "p" none [sref "q" 1]) rfl
      (sglyph_saveable pio _ _ _ (Or.inl rfl))
    have hq := holds_fontOf (mid := mid) (l := cfont D) (f := sfile "q") (g := sglyph D "q" (some [square]) [sref "p" 0]) rfl
      (sglyph_saveable pio _ _ _ (Or.inr rfl))
    refine ⟨_, List.mem_singleton_self _, _, Spec.located (sfile "q") (sref "p" 0), Relation.ReflTransGen.refl,
      Relation.TransGen.tail (b := Spec.located (sfile "p") (sref "q" 1)) (.single ?_) ?_, rfl⟩
    · exact ⟨sfile "p", _, rfl, hp, sref "q" 1, by simp [saved, sglyph, savedComponent_sref], rfl⟩
    · exact ⟨sfile "q", _, rfl, hq, sref "p" 0, by simp [saved, sglyph, savedComponent_sref], rfl⟩

/-- A font with references that contain a slash and lead deeper and deeper into directories. -/
def dfont (D : Type) : List (Path × Glif Unit D) :=
  [({ parts := ["s".toList, "a.glif".toList] }, sglyph D "a" none [sref "s/a" 0]),
   ({ parts := ["s".toList, "s".toList, "a.glif".toList] }, sglyph D "a" none [sref "s/a" 0]),
   ({ parts := ["s".toList, "s".toList, "s".toList, "a.glif".toList] }, sglyph D "a" (some [square]) [])]

theorem dfont_ok : ∀ x ∈ dfont D, Spec.Saveable pio x.2 ∧
    ∀ d ∈ x.2.components.vec, ((dfont D).lookup (componentFile x.1 d.base)).isSome = true := by
  intro x hx
  simp only [dfont, List.mem_cons, List.not_mem_nil, or_false] at hx
  rcases hx with rfl | rfl | rfl
  · refine ⟨sglyph_saveable pio _ _ _ (Or.inl rfl), ?_⟩
    intro d hd
    cases List.mem_singleton.1 hd
    rfl
  · refine ⟨sglyph_saveable pio _ _ _ (Or.inl rfl), ?_⟩
    intro d hd
    cases List.mem_singleton.1 hd
    rfl
  · exact ⟨sglyph_saveable pio _ _ _ (Or.inr rfl), fun d hd => nomatch hd⟩

/-- Each reference leads one directory deeper. -/
theorem dfont_deeper {c d : GlifComponent} (h : Spec.Refers Unit mid pio (fontOf pio (dfont D)) c d) :
    ∃ f f', c.filename = some f ∧ d.filename = some f' ∧ f.parts.length < f'.parts.length := by
  obtain ⟨f, g, hf, hg, d', hd', rfl⟩ := h
  refine ⟨f, _, hf, rfl, ?_⟩
  match hlk : (dfont D).lookup f with
  | none =>
    obtain ⟨e, he, -⟩ := hg
    unfold fontOf at he
    rw [hlk] at he
    cases he
  | some g0 =>
    have hm := lookup_mem hlk
    rw [holds_fontOf_eq hlk (dfont_ok pio _ hm).1 hg] at hd'
    obtain ⟨d0, hd0, rfl⟩ := List.mem_map.1 hd'
    simp only [dfont, List.mem_cons, List.not_mem_nil, or_false, Prod.mk.injEq] at hm
    rcases hm with ⟨rfl, rfl⟩ | ⟨rfl, rfl⟩ | ⟨rfl, rfl⟩
    · cases List.mem_singleton.1 hd0; decide
    · cases List.mem_singleton.1 hd0; decide
    · cases hd0

/-- C20 as stated is false: the condition on names in `C20_cycles` cannot be left out: here all files exist and parse, there is no
cycle (every reference leads one directory deeper), and yet the result is the cyclic error, because the
same name `s/a` stands for different files. -/
theorem C20_false : ∃ gcs : GlifComponents, gcs.uniques = [] ∧
    Spec.Healthy Unit mid pio (fontOf pio (dfont D)) gcs.vec ∧
    ¬ Spec.Cyclic Unit mid pio (fontOf pio (dfont D)) gcs.vec ∧
    ∀ n, gcs.forest (fun c => (c.toComponent mid pio (fontOf pio (dfont D)) : R (Component Unit D))) (n + 2) =
      some (.err .componentsCyclical) := by
  have hfile : (Spec.located { parts := ["x.glif".toList] } (sref "s/a" 0)).filename =
      some { parts := ["s".toList, "a.glif".toList] } := rfl
  refine ⟨{ vec := [Spec.located { parts := ["x.glif".toList] } (sref "s/a" 0)] }, rfl,
    font_healthy (dfont_ok pio) ?_, ?_, ?_⟩
  · intro c hc
    cases List.mem_singleton.1 hc
    exact ⟨_, hfile, rfl⟩
  · rintro ⟨c, -, d, d', -, h2, h3⟩
    have : ∃ f f', d.filename = some f ∧ d'.filename = some f' ∧ f.parts.length < f'.parts.length := by
      clear h3
      induction h2 with
      | single h => exact dfont_deeper mid pio h
      | tail _ h ih =>
        obtain ⟨f, f', h1, h2, h3⟩ := ih
        obtain ⟨f1, f1', h1', h2', h3'⟩ := dfont_deeper mid pio h
        rw [h2] at h1'
        cases h1'
        exact ⟨f, f1', h1, h2', by omega⟩
    obtain ⟨f, f', h1, h2', h4⟩ := this
    rw [h1, h2'] at h3
    cases h3
    omega
  · intro n
    rw [forest_eq]
    simp only [Run.mapM]
    unfold buildRoot
    have hv : ∀ (c : GlifComponent) (f : Path), (resolved c f (saved (sglyph D "a" none [sref "s/a" 0]))).glif.components.vec =
        [Spec.located f (sref "s/a" 0)] := by
      intro c f
      show List.map _ (List.map _ _) = _
      simp [sglyph, savedComponent_sref]
    simp only []
    rw [font_resolves (g := sglyph D "a" none [sref "s/a" 0]) hfile rfl (sglyph_saveable pio _ _ _ (Or.inl rfl)),
      Run.bind_ok, buildTree_succ, hv]
    simp only [Run.mapM]
    rw [kid_of_root _ _ _ _ (by simp)]
    unfold buildRoot
    simp only []
    rw [font_resolves (g := sglyph D "a" none [sref "s/a" 0]) (f := { parts := ["s".toList, "s".toList, "a.glif".toList] })
      rfl rfl (sglyph_saveable pio _ _ _ (Or.inl rfl)), Run.bind_ok, buildTree_succ, hv]
    rfl

end samples

end

end GP
