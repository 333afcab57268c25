import Verif.Props.ComponentExact
/-!
# Components that refer to a glyph (C126)
-/
open Fl
namespace GP
variable {PD D : Type} {mid : IOF → IOF → IOF} {pio : PlistIO D} {files : Files}

/-- In a tree that could be built the references are answered, node by node. -/
theorem buildTree_answered {n : Nat} {u : List Str} {c : GlifComponent} {comp : Component PD D}
    {t : Tree (Component PD D)} (hc : c.toComponent mid pio files = .ok comp)
    (h : buildTree (fun c => (c.toComponent mid pio files : R (Component PD D))) n u comp = some (.ok t)) :
    c.refersTo t.data.glif = true ∧ Spec.Answered t.data.glif.components.vec t.children := by
  induction n generalizing u c comp t with
  | zero => cases h
  | succ n ih =>
    rw [buildTree_succ] at h
    match hm : Run.mapM (buildKid (fun c => (c.toComponent mid pio files : R (Component PD D))) n u) comp.glif.components.vec with
    | none => rw [hm] at h; cases h
    | some (.err e) => rw [hm] at h; cases h
    | some .panic => rw [hm] at h; cases h
    | some (.ok ts) =>
      rw [hm] at h
      cases h
      have hf := Run.mapM_ok.1 hm
      obtain ⟨f, g, hcf, hg, rfl⟩ := toComponent_ok.1 hc
      refine ⟨by simp [GlifComponent.refersTo, Tree.data, resolved], ?_⟩
      simp only [Tree.data, Tree.children]
      clear hm
      generalize (resolved c f g).glif.components.vec = cs at hf ⊢
      induction hf with
      | nil => exact .nil
      | @cons d t' _ _ hd _ ih2 =>
        unfold buildKid at hd
        split at hd
        next => cases hd
        next =>
          match hcc : (d.toComponent mid pio files : R (Component PD D)) with
          | .err e => simp only [hcc] at hd; cases hd
          | .panic => simp only [hcc] at hd; cases hd
          | .ok comp' =>
            simp only [hcc, Run.bind_ok] at hd
            exact .cons (ih hcc hd).1 (ih hcc hd).2 ih2

/-- **C126**, the references: in the forest of a glyph each component refers to the glyph it was resolved to, and the
components of every glyph in the forest refer, in order, to the glyphs below it. -/
theorem C126_resolved {gcs : GlifComponents} {n : Nat} {ts : List (Tree (Component PD D))}
    (h : gcs.forest (fun c => c.toComponent mid pio files) n = some (.ok ts)) : Spec.Answered gcs.vec ts := by
  rw [forest_eq] at h
  have hf := Run.mapM_ok.1 h
  clear h
  generalize gcs.uniques = u at hf
  generalize gcs.vec = cs at hf ⊢
  induction hf with
  | nil => exact .nil
  | @cons c t _ _ ht _ ih =>
    unfold buildRoot at ht
    match hcc : (c.toComponent mid pio files : R (Component PD D)) with
    | .err e => simp only [hcc] at ht; cases ht
    | .panic => simp only [hcc] at ht; cases ht
    | .ok comp =>
      simp only [hcc, Run.bind_ok] at ht
      exact .cons (buildTree_answered hcc ht).1 (buildTree_answered hcc ht).2 ih

/-- What was read from a file. -/
theorem readFromFilename_ok {f : Path} {g : Glif PD D} (h : readFromFilename mid pio files {} f = .ok g) :
    ∃ g0, Spec.Holds PD mid pio files f g0 ∧ g.components.vec = g0.components.vec.map (Spec.located f) ∧
      g.components.uniques = [] ∧ g.filename = some f ∧ g.name = g0.name := by
  unfold readFromFilename at h
  match hx : files f with
  | none => rw [hx] at h; cases h
  | some none => rw [hx] at h; cases h
  | some (some e) =>
    rw [hx] at h
    simp only [Out.ofOption_some, Out.bind_ok] at h
    match hr : (readGlif mid pio {} e : R (Glif PD D)) with
    | .err er => rw [hr] at h; cases h
    | .panic => rw [hr] at h; cases h
    | .ok g0 =>
      rw [hr] at h
      simp only [Out.bind_ok, Out.ok.injEq] at h
      exact ⟨g0, ⟨e, hx, hr⟩, by rw [← h]; rfl, by rw [← h]; exact (read_uniques hr : g0.components.uniques = []), by rw [← h], by rw [← h]⟩

/-- A chain of references that leads back to the file of the glyph. -/
theorem returns_of_file {f : Path} {g : Glif PD D} (hg : readFromFilename mid pio files {} f = .ok g)
    {c d : GlifComponent} (hc : c ∈ g.components.vec) (hd : Spec.Reach PD mid pio files c d) (hf : d.filename = some f) :
    Spec.NameReturns PD mid pio files g.components.uniques g.components.vec := by
  obtain ⟨g0, h0, hv, -, -, -⟩ := readFromFilename_ok hg
  have hr : Spec.Refers PD mid pio files d c := by
    rw [hv] at hc
    obtain ⟨c', hc', rfl⟩ := List.mem_map.1 hc
    exact ⟨f, g0, hf, h0, c', hc', rfl⟩
  have hcc : Relation.TransGen (Spec.Refers PD mid pio files) c c := Relation.TransGen.tail' hd hr
  exact ⟨c, hc, c, hcc, Or.inr ⟨c, hcc, hcc, rfl⟩⟩

/-- The file a glyph's name calls for. -/
theorem sane_file {f : Path} {name : Str} (h : filenameIsSane name (some f) = .ok true) :
    ({ f with parts := f.parts.dropLast ++ [nameToFilename name true] } : Path) = f := by
  have h := ((C19_sane name f).1).1 h
  unfold Path.fileName at h
  split at h
  next n hn =>
    split at h
    next => cases h
    next =>
      cases h
      have := List.dropLast_append_getLast? _ hn
      rw [this]
  next => cases h

/-- **C126**, for the glyph's own components: a glyph that was read from the file its name calls for never resolves, and so
never flattens, if one of its components refers to it. -/
theorem C126_self {f : Path} {g : Glif PD D} (hg : readFromFilename mid pio files {} f = .ok g)
    (hs : filenameIsSane g.name g.filename = .ok true) {c : GlifComponent} (hc : c ∈ g.components.vec)
    (hr : c.refersTo g = true) (hsl : '/' ∉ g.name) (n : Nat) :
    (∀ ts, g.components.forest (fun c => (c.toComponent mid pio files : R (Component PD D))) n ≠ some (.ok ts)) ∧
    ∀ r, g.flattened (fun c => c.toComponent mid pio files) n ≠ some (.ok r) := by
  have key := fun ts => C20_names_not_ok (n := n) (ts := ts) (returns_of_file hg hc .refl (by
    obtain ⟨g0, -, hv, -, hf, -⟩ := readFromFilename_ok hg
    rw [hf] at hs
    rw [hv] at hc
    obtain ⟨c', hc', rfl⟩ := List.mem_map.1 hc
    have hb : c'.base = g.name := by simpa [GlifComponent.refersTo, Spec.located] using hr
    simp only [Spec.located]
    rw [(C19_partial f c'.base (by rw [hb]; exact hsl) _ (((C19_sane g.name f).1).1 hs)).1, hb, sane_file hs]))
  refine ⟨key, fun r h => ?_⟩
  unfold Glif.flattened at h
  match hm : g.components.forest (fun c => (c.toComponent mid pio files : R (Component PD D))) n with
  | none => rw [hm] at h; cases h
  | some (.err e) => rw [hm] at h; cases h
  | some .panic => rw [hm] at h; cases h
  | some (.ok ts) => exact key ts hm

/-- **C126**, at any depth: in a font whose references contain no slash, a glyph that was read from the file its name calls for
never resolves, and so never flattens, if a component of it or of a glyph that it is built from, directly or indirectly, refers
to it; and if every file that can be reached exists and parses, the error is the cyclic one.  Missing: references with slashes,
for which it is false (`C126_false`). -/
theorem C126_partial {f : Path} {g : Glif PD D} (hg : readFromFilename mid pio files {} f = .ok g)
    (hs : filenameIsSane g.name g.filename = .ok true)
    (hslash : ∀ f, ∀ g : Glif PD D, Spec.Holds PD mid pio files f g → ∀ c ∈ g.components.vec, '/' ∉ c.base)
    {c d : GlifComponent} (hc : c ∈ g.components.vec) (hd : Spec.Reach PD mid pio files c d) (hr : d.refersTo g = true) :
    (∀ n r, g.flattened (fun c => c.toComponent mid pio files) n ≠ some (.ok r)) ∧
    ∀ fs : List Path, (∀ f, files f ≠ none → f ∈ fs) → Spec.Healthy PD mid pio files g.components.vec →
      ∃ n, ∀ m, n ≤ m → g.flattened (fun c => c.toComponent mid pio files) m = some (.err .componentsCyclical) := by
  obtain ⟨g0, h0, hv, -, hf, -⟩ := readFromFilename_ok hg
  rw [hf] at hs
  have hret := returns_of_file hg hc hd (by
    rw [reached_file (gcs := g.components) f (by rw [((C19_sane g.name f).1).1 hs]; rfl) hslash (by
      intro c hc
      rw [hv] at hc
      obtain ⟨c', hc', rfl⟩ := List.mem_map.1 hc
      exact ⟨hslash f g0 h0 c' hc', rfl⟩) c hc d hd]
    have hb : d.base = g.name := by simpa [GlifComponent.refersTo] using hr
    rw [hb, sane_file hs])
  refine ⟨fun n r h => ?_, fun fs hfin hh => ?_⟩
  · unfold Glif.flattened at h
    match hm : g.components.forest (fun c => (c.toComponent mid pio files : R (Component PD D))) n with
    | none => rw [hm] at h; cases h
    | some (.err e) => rw [hm] at h; cases h
    | some .panic => rw [hm] at h; cases h
    | some (.ok ts) => exact C20_names_not_ok hret n ts hm
  · obtain ⟨n, r, hn, h1, -⟩ := C20_exact (PD := PD) fs hfin hh
    refine ⟨n, fun m hm => ?_⟩
    unfold Glif.flattened
    rw [hn m hm, h1.2 hret]
    rfl

section samples
variable (mid : IOF → IOF → IOF) (pio : PlistIO D)

/-- In the sample font with a cycle, `p` is built from `q` and `q` refers to `p`. -/
example : ∃ g : Glif Unit D, readFromFilename mid pio (fontOf pio (cfont D)) {} (sfile "p") = .ok g ∧
    filenameIsSane g.name g.filename = .ok true ∧ ∃ c d, c ∈ g.components.vec ∧
      Spec.Reach Unit mid pio (fontOf pio (cfont D)) c d ∧ d.refersTo g = true := by
  have hp := holds_fontOf (mid := mid) (l := cfont D) (f := sfile "p") (g := sglyph D "p" none [sref "q" 1]) rfl
    (sglyph_saveable pio _ _ _ (Or.inl rfl))
  have hq := holds_fontOf (mid := mid) (l := cfont D) (f := sfile "q") (g := sglyph D "q" (some [square]) [sref "p" 0]) rfl
    (sglyph_saveable pio _ _ _ (Or.inr rfl))
  obtain ⟨e, he, hr⟩ := hp
  refine ⟨_, by unfold readFromFilename; rw [he]; simp only [Out.ofOption_some, Out.bind_ok]; rw [hr]; rfl, rfl,
    Spec.located (sfile "p") (sref "q" 1), Spec.located (sfile "q") (sref "p" 0), ?_, ?_, rfl⟩
  · simp [saved, sglyph, savedComponent_sref, GlifComponent.setFileName, Spec.located]
  · exact .single ⟨sfile "q", _, rfl, hq, sref "p" 0, by simp [saved, sglyph, savedComponent_sref], rfl⟩

/-- A file in a directory below that of the sample font. -/
def efile (n : String) : Path := { parts := ["glyphs".toList, "s".toList, n.toList ++ ".glif".toList] }

/-- A glyph `x` built from `s/y`, which is built from another glyph `x`, in the directory of `s/y`. -/
def efont (D : Type) : List (Path × Glif Unit D) :=
  [(sfile "x", sglyph D "x" none [sref "s/y" 0]),
   (efile "y", sglyph D "s/y" none [sref "x" 0]),
   (efile "x", sglyph D "x" (some [square]) [])]

/-- C126 as stated is false: with a slash in a reference the name of a glyph can stand for another glyph in another directory,
so that a component that refers to the glyph by its name is no cycle and flattening succeeds. -/
theorem C126_false : ∃ g : Glif Unit D, readFromFilename mid pio (fontOf pio (efont D)) {} (sfile "x") = .ok g ∧
    filenameIsSane g.name g.filename = .ok true ∧
    (∃ c d, c ∈ g.components.vec ∧ Spec.Reach Unit mid pio (fontOf pio (efont D)) c d ∧ d.refersTo g = true) ∧
    ∀ n, ∃ r, g.flattened (fun c => (c.toComponent mid pio (fontOf pio (efont D)) : R (Component Unit D))) (n + 2) =
      some (.ok r) := by
  have hx := holds_fontOf (mid := mid) (l := efont D) (f := sfile "x") (g := sglyph D "x" none [sref "s/y" 0]) rfl
    (sglyph_saveable pio _ _ _ (Or.inl rfl))
  have hy := holds_fontOf (mid := mid) (l := efont D) (f := efile "y")
    (g := sglyph D "s/y" none [sref "x" 0]) rfl (sglyph_saveable pio _ _ _ (Or.inl rfl))
  obtain ⟨e, he, hr⟩ := hx
  refine ⟨_, by unfold readFromFilename; rw [he]; simp only [Out.ofOption_some, Out.bind_ok]; rw [hr]; rfl, rfl,
    ⟨Spec.located (sfile "x") (sref "s/y" 0), Spec.located (efile "y") (sref "x" 0), ?_, ?_, rfl⟩, ?_⟩
  · simp [saved, sglyph, savedComponent_sref, GlifComponent.setFileName, Spec.located]
  · exact .single ⟨_, _, rfl, hy, sref "x" 0, by simp [saved, sglyph, savedComponent_sref], rfl⟩
  · intro n
    unfold Glif.flattened
    have hv : ∀ f (b : String) (o : Option (Outline Unit)) (t : String),
        List.map (Spec.located f) (saved (sglyph D b o [sref t 0])).components.vec = [Spec.located f (sref t 0)] := by
      intro f b o t
      simp [saved, sglyph, savedComponent_sref]
    have hl : (fun c : GlifComponent => c.setFileName (sfile "x")) = Spec.located (sfile "x") := rfl
    simp only [hl, hv _ _ _ _, forest_eq, Run.mapM]
    unfold buildRoot
    simp only []
    rw [font_resolves (g := sglyph D "s/y" none [sref "x" 0]) (f := efile "y") rfl rfl
      (sglyph_saveable pio _ _ _ (Or.inl rfl)), Run.bind_ok, buildTree_succ]
    have hw : ∀ c, (resolved c (efile "y") (saved (sglyph D "s/y" none [sref "x" 0]))).glif.components.vec =
        [Spec.located (efile "y") (sref "x" 0)] := fun c => hv (efile "y") "s/y" none "x"
    rw [hw]
    simp only [Run.mapM]
    rw [kid_of_root _ _ _ _ (by simp [saved, sglyph])]
    unfold buildRoot
    simp only []
    rw [font_resolves (g := sglyph D "x" (some [square]) []) (f := efile "x")
      rfl rfl (sglyph_saveable pio _ _ _ (Or.inr rfl))]
    exact ⟨_, rfl⟩

/-- A glyph that refers to itself. -/
example : ∃ g : Glif Unit D, readFromFilename mid pio
      (fontOf pio [(sfile "p", sglyph D "p" none [sref "p" 1])]) {} (sfile "p") = .ok g ∧
    filenameIsSane g.name g.filename = .ok true ∧ '/' ∉ g.name ∧ ∃ c, c ∈ g.components.vec ∧ c.refersTo g = true := by
  obtain ⟨e, he, hr⟩ := holds_fontOf (mid := mid) (l := [(sfile "p", sglyph D "p" none [sref "p" 1])]) (f := sfile "p")
    (g := sglyph D "p" none [sref "p" 1]) rfl (sglyph_saveable pio _ _ _ (Or.inl rfl))
  refine ⟨_, by unfold readFromFilename; rw [he]; simp only [Out.ofOption_some, Out.bind_ok]; rw [hr]; rfl, rfl,
    show '/' ∉ "p".toList by decide, Spec.located (sfile "p") (sref "p" 1), ?_, rfl⟩
  simp [saved, sglyph, savedComponent_sref, GlifComponent.setFileName, Spec.located]

/-- The sample font resolves, and its references are answered. -/
example : Spec.Answered (srefs ["c", "a"]).vec
    [treeC (D := D) (Spec.located (sfile "x") (sref "c" 0)), treeA (Spec.located (sfile "x") (sref "a" 0))] :=
  C126_resolved (sample_resolves (D := D) mid pio)

end samples

end GP
