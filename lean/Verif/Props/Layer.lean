import Verif.Spec.Layer
import Verif.Props.Strings
import Verif.Props.Text
/-!
# Layers as property lists (C45, C64, C65)
-/
open Fl
namespace GP
open Spec

variable {PD V : Type}

theorem isEntry_iff (v : PValue V) (e : Str × Str) : v.isEntry e = true ↔ v = entryValue e := by
  unfold PValue.isEntry entryValue
  split
  · next k d =>
    rw [Bool.and_eq_true, beq_iff_eq, beq_iff_eq]
    constructor
    · rintro ⟨rfl, rfl⟩; rfl
    · intro h; cases h; exact ⟨rfl, rfl⟩
  · next h =>
    constructor
    · intro h; cases h
    · rintro rfl; exact absurd rfl (h _ _)

theorem any_isEntry (l : List (PValue V)) (e : Str × Str) : l.any (·.isEntry e) = true ↔ (entryValue e : PValue V) ∈ l := by
  rw [List.any_eq_true]
  constructor
  · rintro ⟨x, hx, he⟩
    rw [← (isEntry_iff x e).1 he]
    exact hx
  · intro h
    exact ⟨_, h, (isEntry_iff _ _).2 rfl⟩

/-! ## C45 -/

/-- What the loop adds. -/
theorem mergeLoop_missing (es : List (Str × Str)) (theirs : List (PValue V)) :
    ∃ add, mergeLoop es theirs = theirs ++ add ∧ Missing (es.map entryValue) theirs add := by
  induction es generalizing theirs with
  | nil => exact ⟨[], (List.append_nil _).symm, .nil, .slnil, fun x h => (nomatch h), fun n => ⟨0, fun x => by simp⟩⟩
  | cons e es ih =>
    unfold mergeLoop
    by_cases h : theirs.any (·.isEntry e) = true
    · rw [if_pos h]
      obtain ⟨add, h1, h2, h3, h0, h4⟩ := ih theirs
      refine ⟨add, h1, h2, .cons _ h3, h0, fun n => ?_⟩
      cases n with
      | zero => exact ⟨0, fun x => by simp⟩
      | succ n =>
        obtain ⟨k, hk⟩ := h4 n
        refine ⟨k, fun x => ?_⟩
        rw [hk, List.map_cons, List.take_succ_cons, List.mem_cons]
        rw [any_isEntry] at h
        constructor
        · exact fun ⟨a, b⟩ => ⟨.inr a, b⟩
        · rintro ⟨rfl | a, b⟩
          · exact absurd h b
          · exact ⟨a, b⟩
    · rw [if_neg h]
      rw [any_isEntry] at h
      obtain ⟨add, h1, h2, h3, hadd, h4⟩ := ih (theirs ++ [entryValue e])
      refine ⟨entryValue e :: add, by rw [h1, List.append_assoc]; rfl, List.nodup_cons.2 ⟨fun hx => hadd _ hx (by simp), h2⟩,
        h3.cons_cons _, List.forall_mem_cons.2 ⟨h, fun x hx ht => hadd x hx (List.mem_append_left _ ht)⟩, fun n => ?_⟩
      cases n with
      | zero => exact ⟨0, fun x => by simp⟩
      | succ n =>
        obtain ⟨k, hk⟩ := h4 n
        refine ⟨k + 1, fun x => ?_⟩
        rw [List.map_cons, List.take_succ_cons, List.take_succ_cons, List.mem_cons, List.mem_cons, hk]
        constructor
        · rintro (rfl | ⟨a, b⟩)
          · exact ⟨.inl rfl, h⟩
          · exact ⟨.inr a, fun hx => b (List.mem_append_left _ hx)⟩
        · rintro ⟨rfl | a, b⟩
          · exact .inl rfl
          · by_cases hx : x = entryValue e
            · exact .inl hx
            · exact .inr ⟨a, by simp [b, hx]⟩

/-- **C45.** Merging keeps the existing list and adds the entries missing in it, each once and in order. -/
theorem C45_merge (ls : List (Layer PD)) (ours theirs : List (PValue V)) (h : toLayercontents ls = .array ours) :
    ∃ add, mergeLayercontents ls (.array theirs) = .ok (.array (theirs ++ add)) ∧ Missing ours theirs add := by
  cases h
  obtain ⟨add, h1, h2⟩ := mergeLoop_missing (layerEntries 0 ls) theirs
  exact ⟨add, congrArg (fun l => Out.ok (PValue.array l)) h1, h2⟩

/-- **C45.** The result has all entries of both lists and no others, and no duplicate is introduced. -/
theorem C45_no_duplicate (ls : List (Layer PD)) (ours theirs r : List (PValue V)) (h : toLayercontents ls = .array ours)
    (hr : mergeLayercontents ls (.array theirs) = .ok (.array r)) :
    (∀ x, x ∈ r ↔ x ∈ theirs ∨ x ∈ ours) ∧ (theirs.Nodup → r.Nodup) := by
  obtain ⟨add, h1, h2, h3, h4, h5⟩ := C45_merge ls ours theirs h
  rw [h1] at hr
  cases hr
  refine ⟨fun x => ?_, fun hn => List.nodup_append.2 ⟨hn, h2, fun a ha b hb hab => h4 b hb (hab ▸ ha)⟩⟩
  rw [List.mem_append]
  constructor
  · rintro (hx | hx)
    · exact .inl hx
    · exact .inr (h3.subset hx)
  · rintro (hx | hx)
    · exact .inl hx
    · by_cases ht : x ∈ theirs
      · exact .inl ht
      · obtain ⟨k, hk⟩ := h5 ours.length
        exact .inr (List.mem_of_mem_take ((hk x).2 ⟨by rwa [List.take_length], ht⟩))

theorem mergeLoop_all (es : List (Str × Str)) (theirs : List (PValue V)) (h : ∀ e ∈ es, entryValue e ∈ theirs) :
    mergeLoop es theirs = theirs := by
  induction es with
  | nil => rfl
  | cons e es ih =>
    rw [List.forall_mem_cons] at h
    unfold mergeLoop
    rw [if_pos ((any_isEntry _ _).2 h.1), ih h.2]

/-- **C45.** Merging a second time changes nothing. -/
theorem C45_idempotent (ls : List (Layer PD)) (v r : PValue V) (h : mergeLayercontents ls v = .ok r) :
    mergeLayercontents ls r = .ok r := by
  cases v with
  | array theirs =>
    obtain ⟨add, h1, -⟩ := C45_merge (V := V) ls _ theirs rfl
    rw [h1] at h
    cases h
    have hm := (C45_no_duplicate ls _ theirs _ rfl h1).1
    unfold mergeLayercontents
    simp only
    rw [mergeLoop_all _ _ fun e he => (hm _).2 (.inr (List.mem_map_of_mem he))]
  | str s => exact nomatch h
  | dict d => exact nomatch h
  | other o => exact nomatch h

/-- Merging never fails, and panics exactly if the other list is not an array. -/
theorem C45_panics (ls : List (Layer PD)) (v : PValue V) :
    (mergeLayercontents ls v = .panic ↔ ∀ l, v ≠ .array l) ∧ ∀ e, mergeLayercontents ls v ≠ .err e := by
  cases v <;> simp [mergeLayercontents]

/-! ## C64 -/

/-- **C64.** The list has an entry for each layer shown, in order: its name (`public.default` for "Layer 0")
and its directory (`glyphs` for the first layer, otherwise derived from the name). -/
theorem C64_listed (ls : List (Layer PD)) : (toLayercontents ls : PValue V) = .array ((shown ls).map fun p =>
    pairValue (if p.1.name = "Layer 0".toList then "public.default".toList else p.1.name,
      if p.2 = 0 then "glyphs".toList else "glyphs.".toList ++ nameToFilename p.1.name false)) := by
  unfold toLayercontents shown
  congr 1
  have key : ∀ i, (layerEntries i ls).map (entryValue (V := V)) = ((ls.zipIdx i).filter fun p => p.1.visible).map fun p =>
      pairValue (if p.1.name = "Layer 0".toList then "public.default".toList else p.1.name,
        if p.2 = 0 then "glyphs".toList else "glyphs.".toList ++ nameToFilename p.1.name false) := by
    induction ls with
    | nil => exact fun i => rfl
    | cons l ls ih =>
      intro i
      rw [layerEntries, List.zipIdx_cons]
      by_cases hv : l.visible = true
      · rw [if_pos hv, List.filter_cons_of_pos (by exact hv), List.map_cons, List.map_cons, ih]
        rfl
      · rw [if_neg hv, List.filter_cons_of_neg (by exact hv), ih]
  exact key 0

theorem entries_mem (ls : List (Layer PD)) (i : Nat) (e : Str × Str) :
    e ∈ layerEntries i ls ↔ ∃ l n, (l, n) ∈ ls.zipIdx i ∧ l.visible = true ∧ e = (l.key, l.toGlyphsDir n) := by
  induction ls generalizing i with
  | nil => simp [layerEntries]
  | cons l ls ih =>
    rw [layerEntries]
    split
    · next hv =>
      rw [List.mem_cons, ih, List.zipIdx_cons]
      simp only [List.mem_cons, Prod.mk.injEq]
      constructor
      · rintro (rfl | ⟨l', n, h1, h2, rfl⟩)
        · exact ⟨l, i, .inl ⟨rfl, rfl⟩, hv, rfl⟩
        · exact ⟨l', n, .inr h1, h2, rfl⟩
      · rintro ⟨l', n, ⟨rfl, rfl⟩ | h1, h2, rfl⟩
        · exact .inl rfl
        · exact .inr ⟨l', n, h1, h2, rfl⟩
    · next hv =>
      rw [ih, List.zipIdx_cons]
      simp only [List.mem_cons, Prod.mk.injEq]
      constructor
      · rintro ⟨l', n, h1, h2, rfl⟩
        exact ⟨l', n, .inr h1, h2, rfl⟩
      · rintro ⟨l', n, ⟨rfl, rfl⟩ | h1, h2, rfl⟩
        · exact absurd h2 hv
        · exact ⟨l', n, h1, h2, rfl⟩

theorem key_eq_default {l : Layer PD} (h : l.name ≠ "public.default".toList) : l.key = "public.default".toList ↔ l.name = layerZero := by
  unfold Layer.key
  split
  · next e => simp [e]
  · next e => exact ⟨fun k => absurd k h, fun k => absurd k e⟩

theorem key_inj {a b : Layer PD} (ha : a.name ≠ "public.default".toList) (hb : b.name ≠ "public.default".toList)
    (h : a.key = b.key) : a.name = b.name := by
  by_cases h0 : a.name = layerZero
  · rw [(key_eq_default ha).2 h0] at h
    rw [h0, (key_eq_default hb).1 h.symm]
  · have h1 : b.name ≠ layerZero := fun k => h0 ((key_eq_default ha).1 (h.trans ((key_eq_default hb).2 k)))
    unfold Layer.key at h
    rwa [if_neg h0, if_neg h1] at h

theorem dir_ne (s : Str) : ¬ SameIgnoringCase "glyphs".toList ("glyphs.".toList ++ s) := by
  intro h
  have := congrArg List.length h
  simp at this

theorem dir_differ {a b : Str} (ha : CaseSafe a) (hb : CaseSafe b) (h : a ≠ b) :
    ¬ SameIgnoringCase ("glyphs.".toList ++ nameToFilename a false) ("glyphs.".toList ++ nameToFilename b false) := by
  intro hs
  unfold SameIgnoringCase at hs
  rw [List.map_append, List.map_append] at hs
  exact C18_partial false a b ha hb h (List.append_cancel_left hs)

theorem dir_glyphs {l : Layer PD} {n : Nat} : l.toGlyphsDir n = "glyphs".toList ↔ n = 0 := by
  unfold Layer.toGlyphsDir
  split
  · next h => simp [h]
  · next h =>
    constructor
    · intro k
      have := congrArg List.length k
      simp at this
    · exact fun k => absurd k h

/-- **C64**, as far as it holds: with a first layer "Layer 0" that is shown, and different names for which
`name_to_filename` does its job, none of them `public.default`, the list is as the UFO specification wants
it. -/
theorem C64_partial (l : Layer PD) (ls : List (Layer PD)) (h0 : l.name = "Layer 0".toList) (hv : l.visible = true)
    (hd : (l :: ls).Pairwise fun a b => a.name ≠ b.name) (hs : ∀ a ∈ ls, CaseSafe a.name ∧ a.name ≠ "public.default".toList) :
    ∃ es, (toLayercontents (l :: ls) : PValue V) = .array (es.map pairValue) ∧ WellFormed es := by
  have hpd : ∀ a ∈ l :: ls, a.name ≠ "public.default".toList := List.forall_mem_cons.2 ⟨by rw [h0]; decide, fun a ha => (hs a ha).2⟩
  rw [List.pairwise_cons] at hd
  refine ⟨layerEntries 0 (l :: ls), rfl, ?_, ?_, ?_, ?_⟩
  · have key : ∀ (ls : List (Layer PD)) (i : Nat), (ls.Pairwise fun a b => a.name ≠ b.name) → (∀ a ∈ ls, a.name ≠ "public.default".toList) →
        (layerEntries i ls).Pairwise fun a b => a.1 ≠ b.1 := by
      intro ls
      induction ls with
      | nil => exact fun i _ _ => .nil
      | cons a ls ih =>
        intro i hp hn
        rw [List.pairwise_cons] at hp
        rw [List.forall_mem_cons] at hn
        rw [layerEntries]
        split
        · refine List.pairwise_cons.2 ⟨fun e he => ?_, ih _ hp.2 hn.2⟩
          obtain ⟨b, n, hb, _, rfl⟩ := (entries_mem _ _ _).1 he
          have hb := (List.mem_zipIdx hb).2.2 ▸ List.getElem_mem ..
          exact fun k => hp.1 b hb (key_inj hn.1 (hn.2 b hb) k)
        · exact ih _ hp.2 hn.2
    exact key _ _ (List.pairwise_cons.2 hd) hpd
  · have key : ∀ (ls : List (Layer PD)) (i : Nat), 0 < i → (ls.Pairwise fun a b => a.name ≠ b.name) → (∀ a ∈ ls, CaseSafe a.name) →
        (layerEntries i ls).Pairwise fun a b => ¬ SameIgnoringCase a.2 b.2 := by
      intro ls
      induction ls with
      | nil => exact fun i _ _ _ => .nil
      | cons a ls ih =>
        intro i hi hp hn
        rw [List.pairwise_cons] at hp
        rw [List.forall_mem_cons] at hn
        rw [layerEntries]
        split
        · refine List.pairwise_cons.2 ⟨fun e he => ?_, ih _ (by omega) hp.2 hn.2⟩
          obtain ⟨b, n, hb, _, rfl⟩ := (entries_mem _ _ _).1 he
          have hn0 : i + 1 ≤ n := (List.mem_zipIdx hb).1
          have hb := (List.mem_zipIdx hb).2.2 ▸ List.getElem_mem ..
          unfold Layer.toGlyphsDir
          rw [if_neg (by omega), if_neg (by omega)]
          exact dir_differ hn.1 (hn.2 b hb) (hp.1 b hb)
        · exact ih _ (by omega) hp.2 hn.2
    rw [layerEntries, if_pos hv]
    refine List.pairwise_cons.2 ⟨fun e he => ?_, key _ _ (by omega) hd.2 fun a ha => (hs a ha).1⟩
    obtain ⟨b, n, hb, _, rfl⟩ := (entries_mem _ _ _).1 he
    have hn0 : 1 ≤ n := (List.mem_zipIdx hb).1
    unfold Layer.toGlyphsDir
    rw [if_pos rfl, if_neg (by omega)]
    exact dir_ne _
  · rw [layerEntries, if_pos hv]
    refine List.mem_cons.2 (.inl ?_)
    rw [(key_eq_default (hpd l (List.mem_cons_self ..))).2 h0]
    rfl
  · intro e he
    obtain ⟨b, n, hb, _, rfl⟩ := (entries_mem _ _ _).1 he
    rw [List.zipIdx_cons, List.mem_cons] at hb
    show b.key = _ ↔ b.toGlyphsDir n = _
    rw [dir_glyphs]
    rcases hb with hb | hb
    · cases hb
      exact ⟨fun _ => rfl, fun _ => (key_eq_default (hpd l (List.mem_cons_self ..))).2 h0⟩
    · have hn0 : 1 ≤ n := (List.mem_zipIdx hb).1
      have hb := (List.mem_zipIdx hb).2.2 ▸ List.getElem_mem ..
      rw [key_eq_default (hs b hb).2]
      exact ⟨fun k => absurd (h0.trans k.symm) (hd.1 b hb), fun k => by omega⟩

/-- A plain layer of a given name. -/
def namedLayer (n : Str) (v : Bool) : Layer Unit := { name := n, visible := v, color := none, outline := [], operation := none, images := [] }

example : ∃ theirs r : List (PValue Unit), theirs.Nodup ∧
    mergeLayercontents [namedLayer "Layer 0".toList true, namedLayer "x".toList true] (.array theirs) = .ok (.array r) ∧ r.length = 3 :=
  ⟨[.array [.str "public.default".toList, .str "glyphs".toList], .array [.str "old".toList, .str "glyphs.old".toList]], _,
    by simp, rfl, by decide +kernel⟩

example : ∃ es, (toLayercontents [namedLayer "Layer 0".toList true, namedLayer "Background".toList true, namedLayer "x".toList false] : PValue Unit) =
    .array (es.map pairValue) ∧ WellFormed es := by
  refine C64_partial _ _ rfl rfl (by simp [namedLayer]) fun a ha => ?_
  simp only [List.mem_cons, List.not_mem_nil, or_false] at ha
  rcases ha with rfl | rfl
  · refine ⟨⟨by decide, fun i c _ h2 => ?_⟩, by decide⟩
    have := List.mem_of_getElem? h2
    exact absurd this (by decide)
  · refine ⟨⟨by decide, fun i c _ h2 => ?_⟩, by decide⟩
    have := List.mem_of_getElem? h2
    exact absurd this (by decide)

/-- **C64 is false of the code** without these conditions: if "Layer 0" is not the first layer,
`public.default` gets another directory; if the first layer is hidden, there is no default layer; layers `Z` and
`z` get directories that differ only in case; and a layer can be called `public.default` itself. -/
theorem C64_false :
    layerEntries 0 [namedLayer "a".toList true, namedLayer "Layer 0".toList true] =
      [("a".toList, "glyphs".toList), ("public.default".toList, "glyphs.L_ayer 0".toList)] ∧
    layerEntries 0 [namedLayer "Layer 0".toList false, namedLayer "a".toList true] = [("a".toList, "glyphs.a".toList)] ∧
    layerEntries 0 [namedLayer "Layer 0".toList true, namedLayer "Z".toList true, namedLayer "z".toList true] =
      [("public.default".toList, "glyphs".toList), ("Z".toList, "glyphs.Z".toList), ("z".toList, "glyphs.z".toList)] ∧
    layerEntries 0 [namedLayer "Layer 0".toList true, namedLayer "public.default".toList true] =
      [("public.default".toList, "glyphs".toList), ("public.default".toList, "glyphs.public.default".toList)] := by
  decide

/-- None of these lists is as the UFO specification wants it. -/
theorem C64_false_lists :
    ¬ WellFormed [("a".toList, "glyphs".toList), ("public.default".toList, "glyphs.L_ayer 0".toList)] ∧
    ¬ WellFormed [("a".toList, "glyphs.a".toList)] ∧
    ¬ WellFormed [("public.default".toList, "glyphs".toList), ("Z".toList, "glyphs.Z".toList), ("z".toList, "glyphs.z".toList)] ∧
    ¬ WellFormed [("public.default".toList, "glyphs".toList), ("public.default".toList, "glyphs.public.default".toList)] := by
  refine ⟨fun h => ?_, fun h => ?_, fun h => ?_, fun h => ?_⟩
  · exact absurd (h.2.2.2 _ (List.mem_cons_self ..)) (by decide)
  · exact absurd h.2.2.1 (by decide)
  · have := (List.pairwise_cons.1 (List.pairwise_cons.1 h.2.1).2).1 _ (List.mem_cons_self ..)
    exact this (by unfold SameIgnoringCase; decide)
  · exact (List.pairwise_cons.1 h.1).1 _ (List.mem_cons_self ..) rfl

/-- Whatever the layers are, different names give different directories. -/
theorem C64_directories (ls : List (Layer PD)) (hd : ls.Pairwise fun a b => a.name ≠ b.name) :
    (layerEntries 0 ls).Pairwise fun a b => a.2 ≠ b.2 := by
  have key : ∀ (ls : List (Layer PD)) (i : Nat), (ls.Pairwise fun a b => a.name ≠ b.name) →
      (layerEntries i ls).Pairwise fun a b => a.2 ≠ b.2 := by
    intro ls
    induction ls with
    | nil => exact fun i _ => .nil
    | cons a ls ih =>
      intro i hp
      rw [List.pairwise_cons] at hp
      rw [layerEntries]
      split
      · refine List.pairwise_cons.2 ⟨fun e he => ?_, ih _ hp.2⟩
        obtain ⟨b, n, hb, _, rfl⟩ := (entries_mem _ _ _).1 he
        have hn0 : i + 1 ≤ n := (List.mem_zipIdx hb).1
        have hb := (List.mem_zipIdx hb).2.2 ▸ List.getElem_mem ..
        show a.toGlyphsDir i ≠ b.toGlyphsDir n
        intro k
        by_cases hi : i = 0
        · rw [dir_glyphs.2 hi] at k
          have := dir_glyphs.1 k.symm
          omega
        · unfold Layer.toGlyphsDir at k
          rw [if_neg hi, if_neg (by omega)] at k
          exact hp.1 b hb (C17_injective _ _ _ (List.append_cancel_left k))
      · exact ih _ hp.2
  exact key ls 0 hd

/-! ## C65 -/

/-- **C65.** The layer information has the colour of the layer and nothing else; there is none for a layer
without colour.  The colour can be read back from it. -/
theorem C65_colour (l : Layer PD) :
    ((l.toLayerinfo : Option (PValue V)) = none ↔ l.color = none) ∧
    ∀ c, l.color = some c → ∃ s, (l.toLayerinfo : Option (PValue V)) = some (.dict [("color".toList, .str s)]) ∧
      ∃ d, Color.parse s = .ok d ∧
      d.r.toF32 = c.r.toF32.normZero ∧ d.g.toF32 = c.g.toF32.normZero ∧
      d.b.toF32 = c.b.toF32.normZero ∧ d.a.toF32 = c.a.toF32.normZero := by
  unfold Layer.toLayerinfo
  refine ⟨?_, fun c hc => ?_⟩
  · cases l.color <;> simp
  · rw [hc]
    exact ⟨_, rfl, C13_round_trip c⟩

end GP
