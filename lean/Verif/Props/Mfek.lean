import Verif.Spec.Mfek
import Verif.Lemmas.Matrix
/-!
# The editor's contours and glyphs (C46 to C51, C61 to C63)
-/
open Fl
namespace GP
open Spec

variable {PD D : Type}

/-! ## C46 -/

/-- **C46.** Detaching gives one entry per contour, in order. -/
theorem C46_detach (o : MOutline PD) : (detachOps o).length = o.length ∧
    ∀ (i : Nat) (c : MContour PD), o[i]? = some c → (detachOps o)[i]? = some c.operation := by
  unfold detachOps
  refine ⟨List.length_map _, fun i c h => ?_⟩
  rw [List.getElem?_map, h]
  rfl

/-- **C46.** Attaching succeeds exactly if there is one entry per contour; otherwise the error says which
there are more of. -/
theorem C46_attach (o : MOutline PD) (ops : OutlineOps PD) :
    ((attachOps o ops).1 = none ↔ ops.length = o.length) ∧
    ((attachOps o ops).1 = some .moreContoursThanOps ↔ ops.length < o.length) ∧
    ((attachOps o ops).1 = some .moreOpsThanContours ↔ o.length < ops.length) := by
  induction o generalizing ops with
  | nil => cases ops <;> simp [attachOps]
  | cons c o ih =>
    cases ops with
    | nil => simp [attachOps]
    | cons p ops =>
      have := ih ops
      simp only [attachOps, List.length_cons, Nat.add_right_cancel_iff, Nat.add_lt_add_iff_right]
      exact this

/-- **C46.** After attaching, detaching returns what was attached, and the contours are otherwise the
same. -/
theorem C46_attached (o : MOutline PD) (ops : OutlineOps PD) (h : (attachOps o ops).1 = none) :
    detachOps (attachOps o ops).2 = ops ∧ (attachOps o ops).2.map MContour.inner = o.map MContour.inner := by
  induction o generalizing ops with
  | nil =>
    cases ops with
    | nil => exact ⟨rfl, rfl⟩
    | cons p ops => simp [attachOps] at h
  | cons c o ih =>
    cases ops with
    | nil => simp [attachOps] at h
    | cons p ops =>
      obtain ⟨h1, h2⟩ := ih ops h
      refine ⟨?_, ?_⟩
      · show p :: detachOps (attachOps o ops).2 = p :: ops
        rw [h1]
      · show c.inner :: (attachOps o ops).2.map MContour.inner = c.inner :: o.map MContour.inner
        rw [h2]

/-- **C46.** Attaching what was detached changes nothing. -/
theorem C46_identity (o : MOutline PD) : attachOps o (detachOps o) = (none, o) := by
  induction o with
  | nil => rfl
  | cons c o ih =>
    show ((attachOps o (detachOps o)).1, c.setOperation c.operation :: (attachOps o (detachOps o)).2) = _
    rw [ih]
    cases c
    rfl

/-- When attaching fails, the contours that had an entry have it, and the others are as before. -/
theorem C46_failed (o : MOutline PD) (ops : OutlineOps PD) :
    (attachOps o ops).2.length = o.length ∧
    ∀ (i : Nat) (c : MContour PD), o[i]? = some c → (attachOps o ops).2[i]? = some (c.setOperation (ops[i]?.getD c.operation)) := by
  induction o generalizing ops with
  | nil => cases ops <;> simp [attachOps]
  | cons c o ih =>
    cases ops with
    | nil =>
      refine ⟨rfl, fun i d h => ?_⟩
      show (c :: o)[i]? = _
      rw [h]
      cases d
      rfl
    | cons p ops =>
      obtain ⟨h1, h2⟩ := ih ops
      refine ⟨by simp [attachOps, h1], fun i d h => ?_⟩
      cases i with
      | zero =>
        cases Option.some.inj h
        rfl
      | succ i => exact h2 i d h

/-- **C46.** The same for the layers of a glyph: attaching succeeds exactly if there is one list per layer
and one entry per contour of each. -/
theorem C46_glyph_attach (m : MGlif PD) (ops : List (OutlineOps PD)) :
    (m.attachOps ops).1 = none ↔ ops.map List.length = m.layers.map fun l => l.outline.length := by
  unfold MGlif.attachOps
  generalize m.layers = ls
  show (attachLayers ls ops).1 = none ↔ _
  induction ls generalizing ops with
  | nil => cases ops <;> simp [attachLayers]
  | cons l ls ih =>
    cases ops with
    | nil => simp [attachLayers]
    | cons o ops =>
      have h1 := (C46_attach l.outline o).1
      unfold attachLayers
      cases h : attachOps l.outline o with
      | mk e out =>
        rw [h] at h1
        cases e with
        | none =>
          simp only [List.map_cons, List.cons.injEq]
          rw [ih, h1.1 rfl]
          simp
        | some e =>
          have : ¬ o.length = l.outline.length := fun h => by simpa using h1.2 h
          simp [this]

open Classical in
/-- Whether attaching to a glyph fails or not, the layers are what they were but for the operations: those in front of the first
layer with another number of contours have the entries, that layer has those there are, and the others have what they had. -/
theorem C46_glyph_failed (m : MGlif PD) (ops : List (OutlineOps PD)) (i : Nat) (l : Layer PD) (hl : m.layers[i]? = some l) :
    ∃ l', (m.attachOps ops).2.layers[i]? = some l' ∧ ({ l' with outline := [] } : Layer PD) = { l with outline := [] } ∧
      l'.outline.length = l.outline.length ∧
      ∀ (n : Nat) (c : MContour PD), l.outline[n]? = some c → l'.outline[n]? = some (c.setOperation
        ((if ∀ j < i, ops[j]?.map List.length = m.layers[j]?.map (fun l => l.outline.length) then ops[i]?.bind (·[n]?) else none).getD
          c.operation)) := by
  show ∃ l', (attachLayers m.layers ops).2[i]? = some l' ∧ _
  generalize m.layers = ls at hl
  have same : ∀ c : MContour PD, c.setOperation c.operation = c := fun c => by cases c; rfl
  induction ls generalizing ops i with
  | nil => simp at hl
  | cons d ls ih =>
    cases ops with
    | nil =>
      refine ⟨l, hl, rfl, rfl, fun n c hc => ?_⟩
      rw [hc]
      have : (if ∀ j < i, ([] : List (OutlineOps PD))[j]?.map List.length = (d :: ls)[j]?.map (fun l => l.outline.length)
          then ([] : List (OutlineOps PD))[i]?.bind (·[n]?) else none) = none := by split <;> simp
      rw [this, Option.getD_none, same]
    | cons o ops =>
      have h1 := (C46_attach d.outline o).1
      have hf := C46_failed d.outline o
      unfold attachLayers
      cases i with
      | zero =>
        cases hl
        have hcond : ∀ j < 0, (o :: ops)[j]?.map List.length = (l :: ls)[j]?.map (fun l => l.outline.length) := fun j hj => (nomatch hj)
        refine ⟨{ l with outline := (attachOps l.outline o).2 }, ?_, rfl, hf.1, fun n c hc => ?_⟩
        · cases h : attachOps l.outline o with
          | mk e out => cases e <;> rfl
        · rw [if_pos hcond]
          exact hf.2 n c hc
      | succ i =>
        have hl' : ls[i]? = some l := hl
        by_cases hlen : o.length = d.outline.length
        · have hnone := h1.2 hlen
          obtain ⟨l', e1, e2, e3, e4⟩ := ih ops i hl'
          refine ⟨l', ?_, e2, e3, fun n c hc => ?_⟩
          · cases h : attachOps d.outline o with
            | mk e out =>
              rw [h] at hnone
              cases hnone
              exact e1
          · rw [e4 n c hc]
            have hiff : (∀ j < i + 1, (o :: ops)[j]?.map List.length = (d :: ls)[j]?.map (fun l => l.outline.length)) ↔
                ∀ j < i, ops[j]?.map List.length = ls[j]?.map (fun l => l.outline.length) := by
              constructor
              · intro h j hj; exact h (j + 1) (by omega)
              · intro h j hj
                cases j with
                | zero => simp [hlen]
                | succ j => exact h j (by omega)
            simp only [hiff, List.getElem?_cons_succ]
        · refine ⟨l, ?_, rfl, rfl, fun n c hc => ?_⟩
          · cases h : attachOps d.outline o with
            | mk e out =>
              cases e with
              | none => exact absurd (h1.1 (by rw [h])) hlen
              | some e => exact hl'
          · rw [if_neg, Option.getD_none, same, hc]
            intro h
            have := h 0 (by omega)
            simp at this
            exact hlen this

/-- **C46.** The errors for a glyph: too few or too many lists, with all those before fitting, or the error
of the first list that does not fit. -/
theorem C46_glyph_errors (ls : List (Layer PD)) (ops : List (OutlineOps PD)) :
    ((attachLayers ls ops).1 = some .moreLayersThanVecOps ↔
      ops.length < ls.length ∧ ops.map List.length = (ls.take ops.length).map fun l => l.outline.length) ∧
    ((attachLayers ls ops).1 = some .moreVecOpsThanLayers ↔
      ls.length < ops.length ∧ (ops.take ls.length).map List.length = ls.map fun l => l.outline.length) := by
  induction ls generalizing ops with
  | nil => cases ops <;> simp [attachLayers]
  | cons l ls ih =>
    cases ops with
    | nil => simp [attachLayers]
    | cons o ops =>
      have h1 := C46_attach l.outline o
      obtain ⟨i1, i2⟩ := ih ops
      unfold attachLayers
      cases h : attachOps l.outline o with
      | mk e out =>
        rw [h] at h1
        cases e with
        | none =>
          have := h1.1.1 rfl
          simp only [List.map_cons, List.cons.injEq, List.length_cons, List.take_succ_cons, Nat.add_lt_add_iff_right]
          rw [i1, i2, this]
          simp
        | some e =>
          have : ¬ o.length = l.outline.length := fun h => by simpa using h1.1.2 h
          have h2 : e ≠ .moreLayersThanVecOps ∧ e ≠ .moreVecOpsThanLayers := by
            rcases Nat.lt_or_gt_of_ne this with h3 | h3
            · cases h1.2.1.2 h3; exact ⟨by decide, by decide⟩
            · cases h1.2.2.2 h3; exact ⟨by decide, by decide⟩
          simp [this, h2.1, h2.2]

theorem C46_glyph_attached (m : MGlif PD) (ops : List (OutlineOps PD)) (h : (m.attachOps ops).1 = none) :
    (m.attachOps ops).2.detachOps = ops ∧
    ∃ ls : List (Layer PD), (m.attachOps ops).2 = { m with layers := ls } ∧
      ls.map (fun l : Layer PD => ({ l with outline := [] } : Layer PD)) = m.layers.map (fun l : Layer PD => ({ l with outline := [] } : Layer PD)) ∧
      ls.map (fun l => l.outline.map MContour.inner) = m.layers.map fun l => l.outline.map MContour.inner := by
  unfold MGlif.attachOps MGlif.detachOps
  refine (fun (k : _ ∧ _ ∧ _) => ⟨k.1, _, rfl, k.2⟩) ?_
  have h' : (attachLayers m.layers ops).1 = none := h
  revert h'
  clear h
  show (attachLayers m.layers ops).1 = none → (attachLayers m.layers ops).2.map _ = ops ∧ _
  generalize m.layers = ls
  intro h
  induction ls generalizing ops with
  | nil =>
    cases ops with
    | nil => exact ⟨rfl, rfl, rfl⟩
    | cons o ops => simp [attachLayers] at h
  | cons l ls ih =>
    cases ops with
    | nil => simp [attachLayers] at h
    | cons o ops =>
      have h1 := C46_attached l.outline o
      unfold attachLayers at h ⊢
      cases ho : attachOps l.outline o with
      | mk e out =>
        rw [ho] at h1 h
        cases e with
        | none =>
          obtain ⟨i1, i2, i3⟩ := ih ops h
          obtain ⟨j1, j2⟩ := h1 rfl
          simp only [List.map_cons, i1, i2, i3, j2]
          exact ⟨by rw [show GP.detachOps out = o from j1], trivial, trivial⟩
        | some e => simp at h

theorem C46_glyph_identity (m : MGlif PD) : m.attachOps m.detachOps = (none, m) := by
  have : attachLayers m.layers m.detachOps = (none, m.layers) := by
    unfold MGlif.detachOps
    generalize m.layers = ls
    induction ls with
    | nil => rfl
    | cons l ls ih =>
      rw [List.map_cons, attachLayers, C46_identity]
      show ((attachLayers ls _).1, { l with outline := l.outline } :: (attachLayers ls _).2) = _
      rw [ih]
  unfold MGlif.attachOps
  rw [this]

/-- Three contours, one of each kind; the first is dashed. -/
def mfekSample : MOutline Unit :=
  [{ inner := .cubic [{}], operation := some (.dash ⟨default, none, [], true, 0, 0⟩) },
   { inner := .quad [{}], operation := none }, { inner := .hyper { points := [], isOpen := true }, operation := none }]

example : (attachOps mfekSample [none, none, none]).1 = none := rfl
example : (attachOps mfekSample [none, none]).1 = some .moreContoursThanOps := rfl
example : (attachOps mfekSample [none, none, none, none]).1 = some .moreOpsThanContours := rfl

/-! ## C47 -/

theorem ofContour_toContour (o : Outline PD) : Out.mapM' MContour.toContour (o.map MContour.ofContour) = .ok o := by
  induction o with
  | nil => rfl
  | cons c o ih =>
    rw [List.map_cons, Out.mapM'_cons, ih]
    rfl

/-- **C47.** The editor's glyph: one visible layer called Layer 0 with the contours and images, without
colour and operation; nothing is flattened yet. -/
theorem C47_upgrade (g : Glif PD D) :
    ∃ l, (MGlif.ofGlif g).layers = [l] ∧ l.name = "Layer 0".toList ∧ l.visible = true ∧ l.color = none ∧ l.operation = none ∧
      l.outline.length = (g.outline.getD []).length ∧ l.images.map Prod.fst = g.images ∧
      (∀ i ∈ l.images, i.2 = i.1.m.affine) ∧ (MGlif.ofGlif g).flattened = none ∧ (MGlif.ofGlif g).componentRects = none := by
  refine ⟨_, rfl, rfl, rfl, rfl, rfl, by simp [MGlif.ofGlif], ?_, ?_, rfl, rfl⟩
  · show (g.images.map fun i => (i, i.m.affine)).map Prod.fst = _
    rw [List.map_map]
    exact List.map_id _
  · intro i hi
    obtain ⟨j, -, rfl⟩ := List.mem_map.1 hi
    rfl

/-- What is left of a glyph after going through the editor's type. -/
theorem C47_exact (g : Glif PD D) :
    (MGlif.ofGlif g).toGlif = .ok ({ g with outline := some (g.outline.getD []), lib := .none } : Glif PD D) := by
  unfold MGlif.toGlif MGlif.ofGlif
  simp only [ofContour_toContour, Out.bind_ok, List.map_map]
  have : (Prod.fst ∘ fun i : GlifImage => (i, i.m.affine)) = id := rfl
  rw [this, List.map_id]

/-- **C47**, as far as it holds: a glyph with an outline and without lib survives. -/
theorem C47_partial (g : Glif PD D) (ho : g.outline.isSome = true) (hl : g.lib = .none) :
    (MGlif.ofGlif g).toGlif = .ok g := by
  rw [C47_exact]
  obtain ⟨o, ho⟩ := Option.isSome_iff_exists.1 ho
  cases g
  cases ho
  cases hl
  rfl

/-- **C47 is false of the code**: the lib is lost, and a glyph without outline comes back with an empty
one. -/
theorem C47_false :
    (∀ (g : Glif PD D), g.lib ≠ .none → (MGlif.ofGlif g).toGlif ≠ .ok g) ∧
    ∀ (g : Glif PD D), g.outline = none → (MGlif.ofGlif g).toGlif ≠ .ok g := by
  constructor
  · intro g h e
    rw [C47_exact] at e
    have := congrArg Glif.lib (Out.ok.inj e)
    exact h this.symm
  · intro g h e
    rw [C47_exact] at e
    have := congrArg Glif.outline (Out.ok.inj e)
    rw [h] at this
    exact nomatch this

/-- There are glyphs with a lib and glyphs without an outline. -/
example (d : D) : ({ lib := .plist d } : Glif PD D).lib ≠ .none := by intro h; cases h

/-- **C47**: an outline counts as cleanly downgradable exactly if every contour is cubic and carries no
operation. -/
theorem C47_clean (o : MOutline PD) :
    cleanlyDowngradable o = true ↔ ∀ c ∈ o, kind c.inner = .cubic ∧ c.operation = none := by
  unfold cleanlyDowngradable
  rw [Bool.and_eq_true, List.all_eq_true, List.all_eq_true]
  have key : ∀ c : MContour PD, ((match c.inner with | .cubic _ => true | _ => false) = true ↔ kind c.inner = .cubic) := by
    intro c
    rcases c with ⟨i, op⟩
    cases i <;> simp [kind]
  constructor
  · rintro ⟨h1, h2⟩ c hc
    exact ⟨(key c).1 (h1 c hc), Option.isNone_iff_eq_none.1 (h2 c hc)⟩
  · exact fun h => ⟨fun c hc => (key c).2 (h c hc).1, fun c hc => Option.isNone_iff_eq_none.2 (h c hc).2⟩

/-- Downgrading succeeds exactly if every contour is cubic; otherwise it panics. -/
theorem C47_downgrade (o : MOutline PD) :
    ((∃ r, o.downgrade = .ok r) ↔ ∀ c ∈ o, kind c.inner = .cubic) ∧ (∀ e, o.downgrade ≠ .err e) := by
  unfold MOutline.downgrade
  induction o with
  | nil => exact ⟨⟨fun _ c h => (nomatch h), fun _ => ⟨[], rfl⟩⟩, fun e h => (nomatch h)⟩
  | cons c o ih =>
    obtain ⟨ih1, ih2⟩ := ih
    rw [Out.mapM'_cons]
    rcases c with ⟨i, op⟩
    cases i with
    | cubic p =>
      show ((∃ r, (Out.mapM' MContour.toContour o >>= fun bs => .ok (p :: bs)) = .ok r) ↔ _) ∧ ∀ e, (Out.mapM' MContour.toContour o >>= fun bs => .ok (p :: bs)) ≠ .err e
      rw [List.forall_mem_cons, ← ih1]
      cases h : Out.mapM' MContour.toContour o with
      | ok r => simp [kind]
      | err e => exact absurd h (ih2 e)
      | panic => simp
    | quad p =>
      refine ⟨⟨fun ⟨r, h⟩ => (nomatch h), fun h => ?_⟩, fun e h => (nomatch h)⟩
      have := (h _ (List.mem_cons_self ..))
      exact nomatch this
    | hyper p =>
      refine ⟨⟨fun ⟨r, h⟩ => (nomatch h), fun h => ?_⟩, fun e h => (nomatch h)⟩
      have := (h _ (List.mem_cons_self ..))
      exact nomatch this

/-- Upgrading and downgrading gives the outline back, cleanly. -/
theorem C47_up_down (o : Outline PD) : (Outline.upgrade o).downgrade = .ok o ∧ cleanlyDowngradable (Outline.upgrade o) = true := by
  refine ⟨ofContour_toContour o, ?_⟩
  rw [C47_clean]
  intro c h
  obtain ⟨d, _, rfl⟩ := List.mem_map.1 h
  exact ⟨rfl, rfl⟩

/-- Downgrading a clean outline loses nothing. -/
theorem C47_down_up (o : MOutline PD) (h : cleanlyDowngradable o = true) : ∃ r, o.downgrade = .ok r ∧ Outline.upgrade r = o := by
  rw [C47_clean] at h
  unfold MOutline.downgrade
  induction o with
  | nil => exact ⟨[], rfl, rfl⟩
  | cons c o ih =>
    rw [List.forall_mem_cons] at h
    obtain ⟨⟨h1, h2⟩, h3⟩ := h
    obtain ⟨r, hr, hu⟩ := ih h3
    rcases c with ⟨i, op⟩
    cases i with
    | cubic p =>
      cases h2
      refine ⟨p :: r, ?_, ?_⟩
      · rw [Out.mapM'_cons, hr]
        rfl
      · show MContour.ofContour p :: Outline.upgrade r = _
        rw [hu]
        rfl
    | quad p => exact nomatch h1
    | hyper p => exact nomatch h1

/-- **C47 is false of the code** for outlines as well: a contour with an operation is downgraded and the
operation lost. -/
theorem C47_false_operation : ∃ (o : MOutline PD) (r : Outline PD), (∃ c ∈ o, c.operation ≠ none) ∧ o.downgrade = .ok r ∧ Outline.upgrade r ≠ o := by
  refine ⟨[{ inner := .cubic [], operation := some (.dash ⟨default, none, [], true, 0, 0⟩) }], [[]],
    ⟨_, List.mem_cons_self .., fun h => nomatch h⟩, rfl, fun h => ?_⟩
  have := congrArg (fun o : MOutline PD => o.map fun c => c.operation.isSome) h
  revert this
  show [false] = [true] → False
  decide

/-- A glyph of the editor with no layer, or with a contour that is not cubic in the first, cannot be turned
into a glyph: it panics. -/
theorem C47_panics (m : MGlif PD) : (m.toGlif : Out MfekErr (Glif PD D)) = .panic ↔
    m.layers = [] ∨ ∃ l ls, m.layers = l :: ls ∧ ∃ c ∈ l.outline, kind c.inner ≠ .cubic := by
  unfold MGlif.toGlif
  cases m.layers with
  | nil => simp
  | cons l ls =>
    have h := C47_downgrade l.outline
    unfold MOutline.downgrade at h
    simp only [List.cons.injEq, reduceCtorEq, false_or]
    cases hr : Out.mapM' MContour.toContour l.outline with
    | ok r =>
      refine ⟨fun h => (nomatch h), fun ⟨l', ls', ⟨e1, _⟩, c, hc, hk⟩ => ?_⟩
      subst e1
      exact absurd (h.1.1 ⟨r, hr⟩ c hc) hk
    | err e => exact absurd hr (h.2 e)
    | panic =>
      refine ⟨fun _ => ⟨l, ls, ⟨rfl, rfl⟩, ?_⟩, fun _ => rfl⟩
      apply Decidable.byContradiction
      intro hn
      obtain ⟨r, hr'⟩ := h.1.2 fun c hc => Decidable.byContradiction fun hk => hn ⟨c, hc, hk⟩
      rw [hr] at hr'
      exact nomatch hr'

end GP
