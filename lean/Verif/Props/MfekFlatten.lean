import Verif.Model.MfekFlatten
import Verif.Props.Flatten
import Verif.Props.Mfek
/-!
# Flattening a glyph of the editor (C120)
-/
open Fl
namespace GP
variable {PD D : Type}

theorem mflatten_ok {toC : GlifComponent → R (Component PD D)} {n : Nat} {m m' : MGlif PD} {rects : List ComponentRect}
    (h : m.flatten toC n = some (.ok (m', rects))) : ∃ ts, m.components.forest toC n = some (.ok ts) ∧
      rects = (flattenForest ts).2 ∧ m' = { m with flattened := some (flattenForest ts).1, components := {} } := by
  unfold MGlif.flatten at h
  match hf : m.components.forest toC n with
  | none => rw [hf] at h; simp [Run.bind] at h
  | some (.ok ts) =>
    rw [hf] at h
    simp only [Run.bind, Option.some.injEq, Out.ok.injEq, Prod.mk.injEq] at h
    exact ⟨ts, rfl, h.2.symm, h.1.symm⟩
  | some (.err e) => rw [hf] at h; simp [Run.bind] at h
  | some .panic => rw [hf] at h; simp [Run.bind] at h

/-- **C120.** Flattening a glyph of the editor keeps its layers and all other fields but `flattened` and the components,
of which there are none left.  (The rectangles go to the caller, not to `component_rects`.) -/
theorem C120_kept {toC : GlifComponent → R (Component PD D)} {n : Nat} {m m' : MGlif PD} {rects : List ComponentRect}
    (h : m.flatten toC n = some (.ok (m', rects))) :
    m'.layers = m.layers ∧ m'.components = { root := [], vec := [], uniques := [] } ∧ m'.anchors = m.anchors ∧
    m'.componentRects = m.componentRects ∧ m'.guidelines = m.guidelines ∧ m'.width = m.width ∧
    m'.unicode = m.unicode ∧ m'.name = m.name ∧ m'.note = m.note ∧ m'.filename = m.filename := by
  obtain ⟨ts, -, -, rfl⟩ := mflatten_ok h
  exact ⟨rfl, rfl, rfl, rfl, rfl, rfl, rfl, rfl, rfl, rfl⟩

/-- **C120.** The field `flattened` holds the contours of the components, each component followed by its own components,
the last one first. -/
theorem C120_drawn {toC : GlifComponent → R (Component PD D)} {n : Nat} {m m' : MGlif PD} {rects : List ComponentRect}
    {ts : List (Tree (Component PD D))} (h : m.flatten toC n = some (.ok (m', rects)))
    (ht : m.components.forest toC n = some (.ok ts)) :
    ∃ o, Spec.DrawnNodes (ts.flatMap (Spec.lastFirst (·.matrix))) o ∧ m'.flattened = some o := by
  obtain ⟨ts', h1, -, rfl⟩ := mflatten_ok h
  rw [ht] at h1
  cases h1
  refine ⟨_, drawnAll_contributions _, ?_⟩
  rw [flattenForest_fst]
  rfl

/-- **C120.** Flattening in the editor succeeds and fails as flattening the glyph itself does, with the same contours, the
same rectangles and the same errors. -/
theorem C120_same (toC : GlifComponent → R (Component PD D)) (n : Nat) (g : Glif PD D) :
    (∀ (o : Outline PD) rects, (∃ m', (MGlif.ofGlif g).flatten toC n = some (.ok (m', rects)) ∧ m'.flattened = some o) ↔
      ∃ g', g.flattened toC n = some (.ok (g', rects)) ∧ g'.outline = some o) ∧
    (∀ e, (MGlif.ofGlif g).flatten toC n = some (.err e) ↔ g.flattened toC n = some (.err e)) ∧
    ((MGlif.ofGlif g).flatten toC n = some .panic ↔ g.flattened toC n = some .panic) := by
  have e : (MGlif.ofGlif g).components = g.components := rfl
  unfold MGlif.flatten Glif.flattened
  rw [e]
  match g.components.forest toC n with
  | none => simp [Run.bind]
  | some (.ok ts) => simp [Run.bind]
  | some (.err e) => simp [Run.bind]
  | some .panic => simp [Run.bind]

/-- **C120.** Saving a flattened glyph of the editor gives what saving it unflattened gives, without the components:
what is in `flattened` is not saved. -/
theorem C120_saved {toC : GlifComponent → R (Component PD D)} {n : Nat} {m m' : MGlif PD} {rects : List ComponentRect}
    (h : m.flatten toC n = some (.ok (m', rects))) :
    (∀ g : Glif PD D, m.toGlif = .ok g → m'.toGlif = .ok ({ g with components := {} } : Glif PD D)) ∧
    ((m'.toGlif : Out MfekErr (Glif PD D)) = .panic ↔ (m.toGlif : Out MfekErr (Glif PD D)) = .panic) := by
  obtain ⟨ts, -, -, rfl⟩ := mflatten_ok h
  unfold MGlif.toGlif
  match m.layers with
  | [] => exact ⟨fun g hg => (nomatch hg), Iff.rfl⟩
  | l :: _ =>
    simp only
    match Out.mapM' MContour.toContour l.outline with
    | .ok o =>
      refine ⟨fun g hg => ?_, ?_⟩
      · cases hg
        rfl
      · exact ⟨fun h => (nomatch h), fun h => (nomatch h)⟩
    | .err e => exact ⟨fun g hg => (nomatch hg), ⟨fun h => (nomatch h), fun h => (nomatch h)⟩⟩
    | .panic => exact ⟨fun g hg => (nomatch hg), ⟨fun _ => rfl, fun _ => rfl⟩⟩

/-- **C120**, exactly: a glyph flattened in the editor and saved draws its own contours and those of its components, up to
order, if and only if the components and their components have no contours. -/
theorem C120_exact {toC : GlifComponent → R (Component PD D)} {n : Nat} {m m' : MGlif PD} {rects : List ComponentRect}
    {ts : List (Tree (Component PD D))} {g g' : Glif PD D} (h : m.flatten toC n = some (.ok (m', rects)))
    (ht : m.components.forest toC n = some (.ok ts)) (hg : m.toGlif = .ok g) (hg' : m'.toGlif = .ok g') :
    (∃ o, Spec.DrawnNodes (ts.flatMap (Spec.lastFirst (·.matrix))) o ∧
        (g'.outline.getD []).Perm (g.outline.getD [] ++ o)) ↔
      ∀ x ∈ ts.flatMap (Spec.lastFirst (·.matrix)), x.2.glif.outline.getD [] = [] := by
  have e := (C120_saved h).1 g hg
  rw [e] at hg'
  cases hg'
  constructor
  · rintro ⟨o, ho, hp⟩ x hx
    have hl := hp.length_eq
    rw [List.length_append] at hl
    simp only at hl
    have ho0 : o.length = 0 := by omega
    rw [drawnAll_length ho] at ho0
    rw [List.sum_eq_zero_iff_forall_eq_nat] at ho0
    exact List.length_eq_zero_iff.mp (ho0 _ (List.mem_map.mpr ⟨x, hx, rfl⟩))
  · intro hx
    obtain ⟨o, ho, -⟩ := C120_drawn h ht
    have : o = [] := by
      rw [← List.length_eq_zero_iff, drawnAll_length ho, List.sum_eq_zero_iff_forall_eq_nat]
      intro k hk
      obtain ⟨x, hx', rfl⟩ := List.mem_map.mp hk
      rw [hx x hx']
      rfl
    subst this
    exact ⟨[], ho, by rw [List.append_nil]⟩

/-- **C120**, for components without contours, themselves or their components.  Missing: any others, for which it is false
(`C120_false`). -/
theorem C120_partial {toC : GlifComponent → R (Component PD D)} {n : Nat} {m m' : MGlif PD} {rects : List ComponentRect}
    {ts : List (Tree (Component PD D))} {g : Glif PD D} (h : m.flatten toC n = some (.ok (m', rects)))
    (ht : m.components.forest toC n = some (.ok ts)) (hg : m.toGlif = .ok g)
    (hx : ∀ x ∈ ts.flatMap (Spec.lastFirst (·.matrix)), x.2.glif.outline.getD [] = []) :
    ∃ (g' : Glif PD D) (o : Outline PD), m'.toGlif = .ok g' ∧
      Spec.DrawnNodes (ts.flatMap (Spec.lastFirst (·.matrix))) o ∧ (g'.outline.getD []).Perm (g.outline.getD [] ++ o) := by
  have e := (C120_saved h).1 g hg
  obtain ⟨o, h1, h2⟩ := (C120_exact h ht hg e).mpr hx
  exact ⟨_, o, e, h1, h2⟩

variable (mid : IOF → IOF → IOF) (pio : PlistIO D)

theorem mflatten_ofGlif (toC : GlifComponent → R (Component PD D)) (n : Nat) (g : Glif PD D)
    {ts : List (Tree (Component PD D))} (ht : g.components.forest toC n = some (.ok ts)) :
    (MGlif.ofGlif g).flatten toC n = some (.ok ({ MGlif.ofGlif g with flattened := some (flattenForest ts).1, components := {} },
      (flattenForest ts).2)) := by
  have e : (MGlif.ofGlif g).components = g.components := rfl
  unfold MGlif.flatten
  rw [e, ht]
  rfl

/-- C120 as stated is false: of a glyph that refers to `b` and `a` in the sample font and is flattened in the editor, only
its own contours are saved, neither the squares of the components nor the components. -/
theorem C120_false : ∃ (g g' : Glif Unit D) (m' : MGlif Unit) (rects : List ComponentRect) (n : Nat)
    (ts : List (Tree (Component Unit D))),
    (MGlif.ofGlif g).flatten (sresolve mid pio) n = some (.ok (m', rects)) ∧
    g.components.forest (sresolve mid pio) n = some (.ok ts) ∧ m'.toGlif = .ok g' ∧
    g'.components.vec = [] ∧ g'.outline = g.outline ∧
    ¬ ∃ o, Spec.DrawnNodes (ts.flatMap (Spec.lastFirst (·.matrix))) o ∧
      (g'.outline.getD []).Perm (g.outline.getD [] ++ o) := by
  have hf := mflatten_ofGlif _ 3 (userOf D ["b", "a"]) (sample_ba mid pio)
  have hg : (MGlif.ofGlif (userOf D ["b", "a"])).toGlif = .ok (userOf D ["b", "a"]) := rfl
  have hg' := (C120_saved hf).1 _ hg
  refine ⟨userOf D ["b", "a"], _, _, _, 3, _, hf, sample_ba mid pio, hg', rfl, rfl, ?_⟩
  intro hx
  have := (C120_exact hf (sample_ba mid pio) hg hg').mp hx
    ([], (treeA (Spec.located (sfile "x") (sref "a" 0))).data) (by simp [Spec.lastFirst])
  simp [treeA, Tree.data, outline_a] at this

/-- The hypotheses of `C120_kept`, `C120_drawn`, `C120_saved` and `C120_exact` can be met. -/
example : ∃ (m m' : MGlif Unit) (rects : List ComponentRect) (ts : List (Tree (Component Unit D))) (g g' : Glif Unit D),
    m.components.vec ≠ [] ∧ m.flatten (sresolve mid pio) 3 = some (.ok (m', rects)) ∧
    m.components.forest (sresolve mid pio) 3 = some (.ok ts) ∧ m.toGlif = .ok g ∧ m'.toGlif = .ok g' :=
  ⟨MGlif.ofGlif (userOf D ["b", "a"]), _, _, _, _, _, by simp [MGlif.ofGlif, userOf, srefs],
    mflatten_ofGlif _ _ _ (sample_ba mid pio), sample_ba mid pio, rfl, rfl⟩

/-- The hypotheses of `C120_partial` can be met: a component without contours. -/
example : ∃ (toC : GlifComponent → R (Component Unit D)) (m m' : MGlif Unit) (rects : List ComponentRect)
    (ts : List (Tree (Component Unit D))) (g : Glif Unit D), m.components.vec ≠ [] ∧
    m.flatten toC 1 = some (.ok (m', rects)) ∧ m.components.forest toC 1 = some (.ok ts) ∧ m.toGlif = .ok g ∧
    ∀ x ∈ ts.flatMap (Spec.lastFirst (·.matrix)), x.2.glif.outline.getD [] = [] :=
  ⟨fun _ => .ok {}, MGlif.ofGlif (userOf D ["b"]), _, _, [.node {} []], _, by simp [MGlif.ofGlif, userOf, srefs],
    mflatten_ofGlif _ _ _ rfl, rfl, rfl, by simp [Spec.lastFirst, Tree.data, Tree.children]⟩

end GP
