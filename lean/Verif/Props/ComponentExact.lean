import Verif.Props.Component
/-!
# When resolving components gives the cyclic error (C20)
-/
open Fl
namespace GP
variable {PD D : Type} {mid : IOF → IOF → IOF} {pio : PlistIO D} {files : Files}

/-- In a tree that could be built no name comes back. -/
theorem tree_fresh {n : Nat} {u : List Str} {c : GlifComponent} {comp : Component PD D}
    {t : Tree (Component PD D)} (hc : c.toComponent mid pio files = .ok comp)
    (h : buildTree (fun c => (c.toComponent mid pio files : R (Component PD D))) n u comp = some (.ok t)) :
    (∀ z, Relation.TransGen (Spec.Refers PD mid pio files) c z → z.base ∉ u) ∧
    ∀ w z, Relation.TransGen (Spec.Refers PD mid pio files) c w → Relation.TransGen (Spec.Refers PD mid pio files) w z →
      w.base ≠ z.base := by
  induction n generalizing u c comp t with
  | zero => cases h
  | succ n ih =>
    have kid : ∀ d, Spec.Refers PD mid pio files c d → d.base ∉ u ∧ ∃ compd td, d.toComponent mid pio files = .ok compd ∧
        buildTree (fun c => (c.toComponent mid pio files : R (Component PD D))) n (d.base :: u) compd = some (.ok td) := by
      intro d hd
      obtain ⟨comp', hc', hmem⟩ := refers_iff.1 hd
      rw [hc] at hc'
      cases hc'
      rw [buildTree_succ] at h
      match hm : Run.mapM (buildKid (fun c => (c.toComponent mid pio files : R (Component PD D))) n u) comp.glif.components.vec with
      | none => rw [hm] at h; cases h
      | some (.err e) => rw [hm] at h; cases h
      | some .panic => rw [hm] at h; cases h
      | some (.ok ts) =>
        obtain ⟨t', -, ht'⟩ := forall₂_mem (Run.mapM_ok.1 hm) hmem
        unfold buildKid at ht'
        split at ht'
        next => cases ht'
        next hb =>
          match hcc : (d.toComponent mid pio files : R (Component PD D)) with
          | .err e => simp only [hcc] at ht'; cases ht'
          | .panic => simp only [hcc] at ht'; cases ht'
          | .ok compd =>
            simp only [hcc, Run.bind_ok] at ht'
            exact ⟨hb, compd, t', rfl, ht'⟩
    constructor
    · intro z hz
      obtain ⟨d, hd, hdz⟩ := Relation.TransGen.head'_iff.1 hz
      obtain ⟨hb, compd, td, h1, h2⟩ := kid d hd
      rcases Relation.reflTransGen_iff_eq_or_transGen.1 hdz with rfl | hdz
      · exact hb
      · exact fun hu => (ih h1 h2).1 z hdz (List.mem_cons_of_mem _ hu)
    · intro w z hw hz
      obtain ⟨d, hd, hdw⟩ := Relation.TransGen.head'_iff.1 hw
      obtain ⟨hb, compd, td, h1, h2⟩ := kid d hd
      rcases Relation.reflTransGen_iff_eq_or_transGen.1 hdw with rfl | hdw
      · intro e
        exact (ih h1 h2).1 z hz (by rw [← e]; exact List.mem_cons_self)
      · exact (ih h1 h2).2 w z hdw hz

/-- When a name comes back the components are never resolved, whatever else is wrong with the font. -/
theorem C20_names_not_ok {gcs : GlifComponents} (hc : Spec.NameReturns PD mid pio files gcs.uniques gcs.vec) (n : Nat)
    (ts : List (Tree (Component PD D))) : gcs.forest (fun c => c.toComponent mid pio files) n ≠ some (.ok ts) := by
  intro h
  rw [forest_eq] at h
  obtain ⟨c, hmem, z, hz, hall⟩ := hc
  obtain ⟨t, -, ht⟩ := forall₂_mem (Run.mapM_ok.1 h) hmem
  unfold buildRoot at ht
  match hcc : (c.toComponent mid pio files : R (Component PD D)) with
  | .err e => simp only [hcc] at ht; cases ht
  | .panic => simp only [hcc] at ht; cases ht
  | .ok comp =>
    simp only [hcc, Run.bind_ok] at ht
    have := tree_fresh hcc ht
    rcases hall with hu | ⟨w, hw, hwz, e⟩
    · exact this.1 z hz hu
    · exact this.2 w z hw hwz e

/-- **C20**, exactly: in a finite font in which every file that can be reached exists and parses, resolution fails with the
cyclic error if and only if below some reference a name comes back that was met on the way (below that reference) or was
marked before, and otherwise succeeds.  A name, not a file: see `C20_false`. -/
theorem C20_exact (fs : List Path) (hfin : ∀ f, files f ≠ none → f ∈ fs) {gcs : GlifComponents}
    (hh : Spec.Healthy PD mid pio files gcs.vec) :
    ∃ n, ∃ r : R (List (Tree (Component PD D))),
      (∀ m, n ≤ m → gcs.forest (fun c => c.toComponent mid pio files) m = some r) ∧
      (r = .err .componentsCyclical ↔ Spec.NameReturns PD mid pio files gcs.uniques gcs.vec) ∧
      ((∃ ts, r = .ok ts) ↔ ¬ Spec.NameReturns PD mid pio files gcs.uniques gcs.vec) := by
  obtain ⟨n, r, hr⟩ := C20_terminates (PD := PD) (mid := mid) (pio := pio) fs hfin gcs
  have hrn := hr n (Nat.le_refl n)
  have h1 : Spec.NameReturns PD mid pio files gcs.uniques gcs.vec → r = .err .componentsCyclical := by
    intro hc
    rcases forest_outcomes hh hrn with ⟨ts, rfl⟩ | ⟨h, -⟩
    · exact absurd hrn (C20_names_not_ok hc n ts)
    · exact h
  have h2 : r = .err .componentsCyclical → Spec.NameReturns PD mid pio files gcs.uniques gcs.vec := by
    intro he
    subst he
    rw [forest_eq] at hrn
    obtain ⟨c, hc, hce⟩ := Run.mapM_err hrn
    obtain ⟨comp, hcomp⟩ := resolvable_iff.1 (hh c hc c Relation.ReflTransGen.refl)
    unfold buildRoot at hce
    simp only [hcomp, Run.bind_ok] at hce
    rcases buildTree_fails hcomp (hh c hc) hce with ⟨t, ht⟩ | ⟨-, y, z, h2, h3, h4⟩
    · cases ht
    · refine ⟨c, hc, z, Relation.TransGen.tail' h2 h3, ?_⟩
      rcases h4 with h4 | ⟨w, h4, h5, h6⟩
      · exact Or.inl h4
      · exact Or.inr ⟨w, h4, Relation.TransGen.tail' h5 h3, h6⟩
  refine ⟨n, r, hr, ⟨h2, h1⟩, ?_⟩
  constructor
  · rintro ⟨ts, rfl⟩ hc
    cases h1 hc
  · intro hc
    rcases forest_outcomes hh hrn with h | ⟨h, -⟩
    · exact h
    · exact absurd (h2 h) hc

/-- In the font of `C20_false`, which has no cycle, a name comes back. -/
example (mid : IOF → IOF → IOF) (pio : PlistIO D) : ∃ cs : List GlifComponent,
    Spec.Healthy Unit mid pio (fontOf pio (dfont D)) cs ∧ ¬ Spec.Cyclic Unit mid pio (fontOf pio (dfont D)) cs ∧
    Spec.NameReturns Unit mid pio (fontOf pio (dfont D)) [] cs := by
  obtain ⟨gcs, hu, hh, hc, hf⟩ := C20_false mid pio
  refine ⟨gcs.vec, hh, hc, ?_⟩
  obtain ⟨n, r, hr, h1, -⟩ := C20_exact _ (fontOf_finite pio _) hh
  rw [hu] at h1
  have h2 := hr (n + 2) (by omega)
  rw [hf n] at h2
  exact h1.1 (by cases h2; rfl)

end GP
