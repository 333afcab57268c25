import Verif.Props.Layer
/-!
# C64: exactly which lists of layers have layer contents as the UFO specification wants them
-/
open Fl
namespace GP
variable {PD : Type} {V : Type}
open Spec

theorem layerEntries_rest (ls : List (Layer PD)) : ∀ i, layerEntries (i + 1) ls =
    (ls.filter fun a => a.visible).map fun a => (a.key, "glyphs.".toList ++ nameToFilename a.name false) := by
  induction ls with
  | nil => intro i; rfl
  | cons l ls ih =>
    intro i
    rw [layerEntries, ih]
    by_cases hv : l.visible = true
    · rw [if_pos hv, List.filter_cons_of_pos (by exact hv), List.map_cons]
      unfold Layer.toGlyphsDir
      rw [if_neg (by omega)]
    · rw [if_neg hv, List.filter_cons_of_neg (by exact hv)]

theorem same_prefix (s a b : Str) : SameIgnoringCase (s ++ a) (s ++ b) ↔ SameIgnoringCase a b := by
  unfold SameIgnoringCase
  rw [List.map_append, List.map_append, List.append_cancel_left_eq]

theorem key_default_iff (l : Layer PD) : l.key = "public.default".toList ↔ l.name = "Layer 0".toList ∨ l.name = "public.default".toList := by
  by_cases h : l.name = "public.default".toList
  · unfold Layer.key
    split <;> simp [h]
  · rw [key_eq_default h]
    simp only [h, or_false]
    exact Iff.rfl

/-- **C64**, exactly: the list is as the UFO specification wants it if and only if there is a first layer,
it is shown and called "Layer 0" or `public.default`, no other layer shown has one of these names, and the
directory names derived from the names of the other layers shown differ even if case is ignored. -/
theorem C64_exact (ls : List (Layer PD)) :
    (∃ es, (toLayercontents ls : PValue V) = .array (es.map pairValue) ∧ WellFormed es) ↔
      ∃ l rest, ls = l :: rest ∧ l.visible = true ∧ (l.name = "Layer 0".toList ∨ l.name = "public.default".toList) ∧
        (∀ a ∈ rest, a.visible = true → a.name ≠ "Layer 0".toList ∧ a.name ≠ "public.default".toList) ∧
        (rest.filter fun a => a.visible).Pairwise fun a b => ¬ SameIgnoringCase (nameToFilename a.name false) (nameToFilename b.name false) := by
  have pv : ∀ e : Str × Str, (pairValue e : PValue V) = entryValue e := fun _ => rfl
  have inj : ∀ es fs : List (Str × Str), es.map (pairValue (V := V)) = fs.map entryValue → es = fs := by
    intro es
    induction es with
    | nil => intro fs h; cases fs with
      | nil => rfl
      | cons _ _ => cases h
    | cons e es ih =>
      intro fs h
      cases fs with
      | nil => cases h
      | cons f fs =>
        rw [List.map_cons, List.map_cons, List.cons.injEq] at h
        rw [ih fs h.2]
        obtain ⟨h1, _⟩ := h
        unfold pairValue entryValue at h1
        simp only [PValue.array.injEq, List.cons.injEq, PValue.str.injEq, and_true] at h1
        rw [Prod.ext h1.1 h1.2]
  have hstart : (∃ es, (toLayercontents ls : PValue V) = .array (es.map pairValue) ∧ WellFormed es) ↔ WellFormed (layerEntries 0 ls) := by
    constructor
    · rintro ⟨es, h1, h2⟩
      unfold toLayercontents at h1
      rw [PValue.array.injEq] at h1
      rw [← inj es _ h1.symm]
      exact h2
    · intro h
      exact ⟨_, rfl, h⟩
  rw [hstart]
  cases ls with
  | nil =>
    constructor
    · intro h
      exact absurd h.2.2.1 (by simp [layerEntries])
    · rintro ⟨l, rest, h, _⟩
      cases h
  | cons l rest =>
    have hrest : ∀ P : Layer PD → Layer PD → Prop, (∃ l' rest', l :: rest = l' :: rest' ∧ l'.visible = true ∧ (l'.name = "Layer 0".toList ∨ l'.name = "public.default".toList) ∧
        (∀ a ∈ rest', a.visible = true → a.name ≠ "Layer 0".toList ∧ a.name ≠ "public.default".toList) ∧
        (rest'.filter fun a => a.visible).Pairwise P) ↔ (l.visible = true ∧ (l.name = "Layer 0".toList ∨ l.name = "public.default".toList) ∧
        (∀ a ∈ rest, a.visible = true → a.name ≠ "Layer 0".toList ∧ a.name ≠ "public.default".toList) ∧
        (rest.filter fun a => a.visible).Pairwise P) := by
      intro P
      constructor
      · rintro ⟨l', rest', h, h2⟩
        cases h
        exact h2
      · intro h
        exact ⟨l, rest, rfl, h⟩
    rw [hrest]
    rw [layerEntries, layerEntries_rest]
    have hglyphs : ∀ s : Str, "glyphs.".toList ++ s ≠ "glyphs".toList := by
      intro s h
      have := congrArg List.length h
      simp at this
    have hd0 : l.toGlyphsDir 0 = "glyphs".toList := rfl
    by_cases hv : l.visible = true
    rotate_left
    · constructor
      · intro h
        rw [if_neg hv] at h
        obtain ⟨a, _, ha⟩ := List.mem_map.1 h.2.2.1
        rw [Prod.mk.injEq] at ha
        exact absurd ha.2 (hglyphs _)
      · exact fun h => absurd h.1 hv
    rw [if_pos hv, hd0]
    unfold WellFormed
    rw [List.pairwise_cons, List.pairwise_cons, List.pairwise_map, List.pairwise_map, List.mem_cons]
    constructor
    · rintro ⟨⟨h1, h2⟩, ⟨h3, h4⟩, h5, h6⟩
      have hk : l.key = "public.default".toList := by
        rcases h5 with h5 | h5
        · rw [Prod.mk.injEq] at h5
          exact h5.1.symm
        · obtain ⟨a, _, ha⟩ := List.mem_map.1 h5
          rw [Prod.mk.injEq] at ha
          exact absurd ha.2 (hglyphs _)
      refine ⟨hv, (key_default_iff l).1 hk, fun a ha hav => ?_, h4.imp fun h => by simpa only [same_prefix] using h⟩
      have := h1 _ (List.mem_map_of_mem (List.mem_filter.2 ⟨ha, hav⟩))
      rw [hk] at this
      have hna : ¬ (a.name = "Layer 0".toList ∨ a.name = "public.default".toList) := fun e => this ((key_default_iff a).2 e).symm
      exact ⟨fun e => hna (.inl e), fun e => hna (.inr e)⟩
    · rintro ⟨_, h1, h2, h3⟩
      have hk := (key_default_iff l).2 h1
      have hother : ∀ a ∈ rest.filter (fun a => a.visible), a.key ≠ "public.default".toList := by
        intro a ha e
        obtain ⟨ha, hav⟩ := List.mem_filter.1 ha
        rcases (key_default_iff a).1 e with e | e
        · exact (h2 a ha hav).1 e
        · exact (h2 a ha hav).2 e
      refine ⟨⟨?_, ?_⟩, ⟨?_, h3.imp fun h => by simpa only [same_prefix] using h⟩, .inl (by rw [hk]), ?_⟩
      · intro e he
        obtain ⟨a, ha, rfl⟩ := List.mem_map.1 he
        rw [hk]
        exact fun e => hother a ha e.symm
      · refine h3.imp_of_mem fun {a b} ha hb h e => ?_
        have hab : a.name = b.name := by
          have ka := hother a ha
          have kb := hother b hb
          have na : ¬ a.name = layerZero := fun e => ka ((key_default_iff a).2 (.inl e))
          have nb : ¬ b.name = layerZero := fun e => kb ((key_default_iff b).2 (.inl e))
          change a.key = b.key at e
          unfold Layer.key at e
          rwa [if_neg na, if_neg nb] at e
        rw [hab] at h
        exact h rfl
      · intro e he
        obtain ⟨a, ha, rfl⟩ := List.mem_map.1 he
        exact dir_ne _
      · rw [List.forall_mem_cons]
        refine ⟨by simp [hk], fun e he => ?_⟩
        obtain ⟨a, ha, rfl⟩ := List.mem_map.1 he
        exact ⟨fun e => absurd e (hother a ha), fun e => absurd e (hglyphs _)⟩

/-- Layers that meet the conditions, and layers that do not. -/
example : ∃ l a b : Layer Unit, l.visible = true ∧ l.name = "Layer 0".toList ∧ a.visible = true ∧ a.name ≠ "Layer 0".toList ∧
    a.name ≠ "public.default".toList ∧ b.name = "Layer 0".toList ∧ b.visible = false :=
  ⟨namedLayer "Layer 0".toList true, namedLayer "a".toList true, namedLayer "Layer 0".toList false, rfl, rfl, rfl, by decide, by decide, rfl, rfl⟩

end GP
