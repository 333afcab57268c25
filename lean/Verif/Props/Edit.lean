import Verif.Spec.Edit
import Verif.Props.FilesFont
import Verif.Props.Flatten
import Verif.Props.PenOpsExact
import Verif.Props.SkiaPath
import Verif.Props.Read
/-!
# Edited glyphs can be saved (C94)
-/
open Fl
namespace GP
variable {PD D : Type}
open Spec

/-! ## Contours -/

/-- Whether a contour can be saved depends only on the types of its points. -/
theorem savable_types (c : Contour PD) : Savable c ↔
    (∃ t ∈ c.map Point.ptype, t ≠ .offcurve) ∧ ∀ t ∈ c.map Point.ptype, t ≠ .undefined ∧ t ≠ .qclose := by
  unfold Savable
  simp

theorem savable_of_types {c d : Contour PD} (h : d.map Point.ptype = c.map Point.ptype) : Savable d ↔ Savable c := by
  rw [savable_types, savable_types, h]

theorem not_unwritable (c : Contour PD) : ¬ intoGlifpoints c = .panic ↔ Savable c := by
  rw [C05_panics_iff]
  unfold Savable
  constructor
  · intro h
    refine ⟨?_, fun p hp => ⟨fun e => h (Or.inr ⟨p, hp, Or.inl e⟩), fun e => h (Or.inr ⟨p, hp, Or.inr e⟩)⟩⟩
    by_contra hh
    exact h (Or.inl fun p hp => by by_contra ho; exact hh ⟨p, hp, ho⟩)
  · rintro ⟨⟨p, hp, ho⟩, hw⟩ (h | ⟨q, hq, h | h⟩)
    · exact ho (h p hp)
    · exact (hw q hq).1 h
    · exact (hw q hq).2 h

theorem mem_modify {α : Type} (f : α → α) (l : List α) (i : Nat) {x : α} (h : x ∈ l.modify i f) : x ∈ l ∨ ∃ y ∈ l, x = f y := by
  obtain ⟨j, hj, rfl⟩ := List.getElem_of_mem h
  rw [List.getElem_modify]
  have hj' : j < l.length := by simpa using hj
  split
  · exact Or.inr ⟨l[j], List.getElem_mem _, rfl⟩
  · exact Or.inl (List.getElem_mem _)

theorem typeOfHandles_lc (a b : Handle) : typeOfHandles a b = .curve ∨ typeOfHandles a b = .line := by
  unfold typeOfHandles
  split <;> simp

/-- The types of an edited open contour: still types of a file, and the first one is on the curve. -/
theorem savable_open {c : Contour PD} (h : ∀ p ∈ c, p.ptype ≠ .undefined ∧ p.ptype ≠ .qclose) {q : Point PD} {l : Contour PD}
    (hl : ∀ p ∈ q :: l, p ∈ c.map Point.swapHandles) (t : PointType) (ht : t = .curve ∨ t = .line) (i : Nat) (hi : i ≠ 0) :
    Savable ((((q :: l).modify 0 fun p => { p with ptype := .move }).modify i fun p => { p with ptype := t })) := by
  have hty : ∀ p ∈ q :: l, p.ptype ≠ .undefined ∧ p.ptype ≠ .qclose := by
    intro p hp
    obtain ⟨o, ho, rfl⟩ := List.mem_map.1 (hl p hp)
    exact h o ho
  obtain ⟨i, rfl⟩ : ∃ k, i = k + 1 := ⟨i - 1, by omega⟩
  refine ⟨⟨{ q with ptype := .move }, by simp [List.modify], by simp⟩, ?_⟩
  intro p hp
  rcases mem_modify _ _ _ hp with hp | ⟨y, hy, rfl⟩
  · rcases mem_modify _ _ _ hp with hp | ⟨y, hy, rfl⟩
    · exact hty p hp
    · simp
  · rcases ht with rfl | rfl <;> simp

/-- Reversing a contour. -/
theorem savable_reversed {c d : Contour PD} (h : Savable c) (hr : toReversed c = .ok d) : Savable d := by
  unfold toReversed at hr
  match c with
  | [] => cases hr
  | p0 :: rest =>
    simp only at hr
    by_cases ho : (p0.ptype == .move && decide (1 < (p0 :: rest).length)) = true
    · simp only [ho, Bool.not_true, Bool.false_eq_true, if_false, if_true] at hr
      obtain ⟨q, l, hql⟩ : ∃ q l, (p0 :: rest).reverse.map Point.swapHandles = q :: l := by
        cases hx : (p0 :: rest).reverse.map Point.swapHandles with
        | nil => simp at hx
        | cons q l => exact ⟨q, l, rfl⟩
      have hmem : ∀ p ∈ q :: l, p ∈ (p0 :: rest).map Point.swapHandles := by
        intro p hp
        rw [← hql, List.map_reverse, List.mem_reverse] at hp
        exact hp
      rw [hql] at hr
      have hlen : (q :: l).length ≥ 2 := by
        rw [← hql]
        simp only [Bool.and_eq_true, decide_eq_true_eq] at ho
        simpa using Nat.succ_le_of_lt ho.2
      split at hr
      · split at hr
        · cases hr
          exact savable_open h.2 hmem _ (typeOfHandles_lc _ _) _ (by omega)
        · cases hr
      · split at hr
        · split at hr
          · cases hr
            exact savable_open h.2 hmem _ (typeOfHandles_lc _ _) _ (by omega)
          · cases hr
        · omega
    · simp only [ho, Bool.not_false, Bool.false_eq_true, if_false, if_true] at hr
      cases hr
      obtain ⟨⟨p, hp, hpo⟩, hw⟩ := h
      refine ⟨⟨p.swapHandles, ?_, hpo⟩, ?_⟩
      · refine List.mem_map_of_mem ?_
        simpa using hp
      · intro x hx
        obtain ⟨y, hy, rfl⟩ := List.mem_map.1 hx
        exact hw y (by simpa using hy)

/-- Refiguring a contour makes it savable if it has two points or more; otherwise it makes it unsavable. -/
theorem C94_refigure (c : Contour PD) : Savable (refigure c) ↔ 2 ≤ c.length := by
  match c with
  | [] => simp [Savable, refigure]
  | [p] =>
    rw [refigure_eq]
    simp [Savable, refigured]
  | p :: q :: rest =>
    refine ⟨fun _ => by simp, fun _ => ?_⟩
    by_cases hp : p.ptype = .move
    · obtain ⟨p', q', rest', hr, hm, hl, -, -⟩ := refigure_open (q := q) (rest := rest) hp
      rw [hr]
      refine ⟨⟨p', List.mem_cons_self .., by rw [hm]; simp⟩, ?_⟩
      intro x hx
      rcases List.mem_cons.1 hx with rfl | hx
      · rw [hm]; simp
      · rcases hl x hx with e | e <;> rw [e] <;> simp
    · obtain ⟨p', q', rest', hr, hf, -⟩ := kurbo_closed (closed_of p q rest hp)
      rw [hr]
      refine ⟨⟨p', List.mem_cons_self .., ?_⟩, ?_⟩
      · rcases hf.2 p' (List.mem_cons_self ..) with e | e <;> rw [e] <;> simp
      · intro x hx
        rcases hf.2 x hx with e | e <;> rw [e] <;> simp

/-- **C94**, exactly: an edit of a contour that can be saved gives one that can be saved if and only if it
keeps an on-curve point and adds no unsavable points. -/
theorem C94_exact (near : SmoothTest) {c d : Contour PD} {x : ContourEdit PD} (h : Savable c) (he : Edited near x c d) :
    Savable d ↔ KeepsSavable c x := by
  cases he with
  | reverse hr => exact ⟨fun _ => trivial, fun _ => savable_reversed h hr⟩
  | refigure => exact C94_refigure c
  | round =>
    refine ⟨fun _ => trivial, fun _ => (savable_of_types ?_).2 h⟩
    unfold roundContour
    rw [List.map_map]; rfl
  | matrix =>
    refine ⟨fun _ => trivial, fun _ => (savable_of_types ?_).2 h⟩
    rw [List.map_map]; rfl
  | @smooth _ _ i b hs =>
    refine ⟨fun _ => trivial, fun _ => (savable_of_types ?_).2 h⟩
    unfold checkSmooth at hs
    cases e : isPointSmoothWithin near c i defaultTolerance with
    | ok s =>
      rw [e, Out.bind_ok] at hs
      cases hs
      refine List.ext_getElem (by simp) fun j h1 h2 => ?_
      simp only [List.getElem_map, List.getElem_modify]
      split <;> rfl
    | err e' => rw [e] at hs; cases hs
    | panic => rw [e] at hs; cases hs
  | setOpen hs =>
    refine ⟨fun _ => trivial, fun _ => ?_⟩
    match c with
    | [] => cases hs
    | p :: c =>
      cases hs
      refine ⟨⟨_, List.mem_cons_self .., by simp⟩, ?_⟩
      intro q hq
      rcases List.mem_cons.1 hq with rfl | hq
      · simp
      · exact h.2 q (List.mem_cons_of_mem _ hq)
  | setClosed hs =>
    refine ⟨fun _ => trivial, fun _ => ?_⟩
    match c with
    | [] => cases hs
    | p :: c =>
      cases hs
      refine ⟨⟨_, List.mem_cons_self .., by simp⟩, ?_⟩
      intro q hq
      rcases List.mem_cons.1 hq with rfl | hq
      · simp
      · exact h.2 q (List.mem_cons_of_mem _ hq)
  | reversePoints hs =>
    refine ⟨fun _ => trivial, fun _ => ?_⟩
    cases hs
    obtain ⟨⟨p, hp, ho⟩, hw⟩ := h
    exact ⟨⟨p, by simpa using hp, ho⟩, fun q hq => hw q (by simpa using hq)⟩
  | @delete _ _ i hs =>
    unfold MInner.delete MInner.vecRemove at hs
    simp only at hs
    by_cases hi : i < c.length
    · rw [if_pos hi] at hs
      cases hs
      unfold Savable KeepsSavable OnCurveAt
      constructor
      · rintro ⟨⟨p, hp, ho⟩, -⟩
        obtain ⟨j, hj, hjp⟩ := List.mem_eraseIdx_iff_getElem?.1 hp
        exact ⟨j, hj, p, hjp, ho⟩
      · rintro ⟨j, hj, p, hp, ho⟩
        exact ⟨⟨p, List.mem_eraseIdx_iff_getElem?.2 ⟨j, hj, hp⟩, ho⟩, fun q hq => h.2 q (List.mem_of_mem_eraseIdx hq)⟩
    · rw [if_neg hi] at hs
      cases hs
  | @slice _ _ s e hs =>
    unfold MInner.sub MInner.vecSlice at hs
    simp only at hs
    by_cases hi : s ≤ e ∧ e ≤ c.length
    · rw [if_pos hi] at hs
      cases hs
      unfold Savable KeepsSavable OnCurveAt
      constructor
      · rintro ⟨⟨p, hp, ho⟩, -⟩
        obtain ⟨j, hj⟩ := List.mem_iff_getElem?.1 hp
        rw [List.getElem?_drop, List.getElem?_take] at hj
        split at hj
        · exact ⟨s + j, by omega, by assumption, p, hj, ho⟩
        · cases hj
      · rintro ⟨j, h1, h2, p, hp, ho⟩
        refine ⟨⟨p, ?_, ho⟩, fun q hq => h.2 q (List.mem_of_mem_take (List.mem_of_mem_drop hq))⟩
        refine List.mem_iff_getElem?.2 ⟨j - s, ?_⟩
        rw [List.getElem?_drop, List.getElem?_take, if_pos (by omega), show s + (j - s) = j by omega]
        exact hp
    · rw [if_neg hi] at hs
      cases hs
  | append hs =>
    cases hs
    unfold KeepsSavable
    constructor
    · exact fun hh p hp => hh.2 p (List.mem_append_right _ hp)
    · intro hd
      obtain ⟨⟨p, hp, ho⟩, hw⟩ := h
      exact ⟨⟨p, List.mem_append_left _ hp, ho⟩, fun q hq => (List.mem_append.1 hq).elim (hw q) (hd q)⟩

/-- Any sequence of such edits. -/
theorem C94_history (near : SmoothTest) {c d : Contour PD} (h : Savable c) (he : EditedTo near c d) : Savable d := by
  induction he with
  | refl => exact h
  | step _ hk hs ih => exact (C94_exact near ih hs).2 hk

/-- The program writes a glyph exactly if all its contours are savable. -/
theorem C94_written (pio : PlistIO D) (g : Glif PD D) :
    (∃ e, glifXml pio g = .ok e) ↔ ∀ c ∈ g.outline.getD [], Savable c := by
  have hp := glifXml_panic pio g
  constructor
  · rintro ⟨e, he⟩ c hc
    rw [← not_unwritable]
    intro hh
    rw [hp.2 ⟨c, hc, hh⟩] at he
    cases he
  · intro h
    cases he : glifXml pio g with
    | ok e => exact ⟨e, rfl⟩
    | err er => exact absurd he (C06_no_err pio g er)
    | panic =>
      obtain ⟨c, hc, hh⟩ := hp.1 he
      exact absurd hh ((not_unwritable c).2 (h c hc))

/-- **C94** for glyphs: a glyph that can be written can still be written after any such edits of its
contours. -/
theorem C94_partial (pio : PlistIO D) (near : SmoothTest) (g : Glif PD D) (o o' : Outline PD) (ho : g.outline = some o)
    (hw : ∃ e, glifXml pio g = .ok e) (he : List.Forall₂ (EditedTo near) o o') :
    ∃ e, glifXml pio { g with outline := some o' } = .ok e := by
  rw [C94_written] at hw ⊢
  rw [ho] at hw
  intro d hd
  obtain ⟨c, hc, hcd⟩ := forall₂_mem_right he hd
  exact C94_history near (hw c hc) hcd

/-- C94 as stated is false: a contour of one point is read from a file that has one, can be written, and
after `refigure_point_types` can no longer be written. -/
theorem C94_false (mid : IOF → IOF → IOF) (pio : PlistIO D) (gp : GlifPoint) (ht : gp.ptype = .line ∨ gp.ptype = .curve) :
    ∃ p : Point PD, contourOfGlif mid [gp] = .ok [p] ∧
      (∃ e, glifXml pio ({ outline := some [[p]] } : Glif PD D) = .ok e) ∧
      glifXml pio ({ outline := some (refigureOutline [[p]]) } : Glif PD D) = .panic := by
  have h1 : ∃ p : Point PD, contourOfGlif mid [gp] = .ok [p] ∧ p.ptype = gp.ptype := by
    unfold contourOfGlif
    rcases ht with e | e <;> simp [e, cubicContour, foldR, cubicStep, modLast]
  obtain ⟨p, hp, hpt⟩ := h1
  refine ⟨p, hp, ?_, ?_⟩
  · rw [C94_written]
    intro c hc
    simp only [Option.getD_some, List.mem_singleton] at hc
    subst hc
    unfold Savable
    rcases ht with e | e <;> simp [hpt, e]
  · rw [glifXml_panic]
    refine ⟨refigure [p], by simp [refigureOutline], ?_⟩
    by_contra hh
    have := (C94_refigure [p]).1 ((not_unwritable _).1 hh)
    simp at this

/-! ## Flattening -/

theorem movedThrough_ptype {ms : List Affine} {p q : Point PD} (h : MovedThrough ms p q) : q.ptype = p.ptype := by
  induction ms generalizing p with
  | nil => rw [show p = q from h]
  | cons m ms ih =>
    obtain ⟨r, h1, h2⟩ := h
    rw [ih h2, h1.ptype]

/-- A flattened glyph can be written if the contours of all components can. -/
theorem C94_flattened (pio : PlistIO D) {toC : GlifComponent → R (Component PD D)} {n : Nat} {g g' : Glif PD D}
    {rects : List ComponentRect} {ts : List (Tree (Component PD D))}
    (h : g.flattened toC n = some (.ok (g', rects))) (ht : g.components.forest toC n = some (.ok ts))
    (hs : ∀ x ∈ ts.flatMap (nodes (·.matrix) []), ∃ e, glifXml pio x.2.glif = .ok e) :
    ∃ e, glifXml pio g' = .ok e := by
  obtain ⟨ns, o, ho, ⟨os, h1, rfl⟩, h2, -⟩ := C24_matrices h ht
  rw [C94_written, ho]
  intro c hc
  obtain ⟨oc, hoc, hc⟩ := List.mem_flatten.1 hc
  obtain ⟨x, hx, hd⟩ := forall₂_mem_right h1 hoc
  obtain ⟨b, hb, hbc⟩ := forall₂_mem_right hd hc
  have hsb := (C94_written pio x.2.glif).1 (hs x (h2 x hx)) b hb
  refine (savable_of_types ?_).2 hsb
  clear hsb hb hc ho
  clear hc
  induction hbc with
  | nil => rfl
  | cons h _ ih => rw [List.map_cons, List.map_cons, movedThrough_ptype h, ih]

/-! ## Contours from elsewhere -/

/-- Points that are drawn. -/
def Drawn (c : Contour PD) : Prop := c ≠ [] ∧ ∀ p ∈ c, p.ptype = .move ∨ p.ptype = .line ∨ p.ptype = .curve

theorem Drawn.savable {c : Contour PD} (h : Drawn c) : Savable c := by
  obtain ⟨hne, ht⟩ := h
  match c with
  | [] => exact absurd rfl hne
  | p :: c =>
    refine ⟨⟨p, List.mem_cons_self .., ?_⟩, fun q hq => ?_⟩
    · rcases ht p (List.mem_cons_self ..) with e | e | e <;> rw [e] <;> simp
    · rcases ht q hq with e | e | e <;> rw [e] <;> simp

theorem penPoint_drawn {el : PenOp} (hel : el ≠ .close) {next : List GlifPoint} {c : Contour PD} (h : penPoint el next = .ok c) : Drawn c := by
  cases el with
  | close => exact absurd rfl hel
  | moveTo p => cases h; exact ⟨by simp, by simp [PenOp.ptype]⟩
  | lineTo p =>
    unfold penPoint at h
    simp only [PenOp.points, PenOp.ptype] at h
    split at h <;> cases h <;> exact ⟨by simp, by simp⟩
  | quadTo a p => cases h
  | curveTo a b p => cases h; exact ⟨by simp, by simp [PenOp.ptype]⟩

theorem penPoints_drawn {first : PenOp} (l : List PenOp) (hl : .close ∉ l) (hne : l ≠ []) : ∀ {c : Contour PD}, penPoints first l = .ok c → Drawn c := by
  induction l with
  | nil => exact absurd rfl hne
  | cons el l ih =>
    intro c h
    have hel : el ≠ .close := fun e => hl (by rw [e]; exact List.mem_cons_self ..)
    match l with
    | [] => exact penPoint_drawn hel h
    | el' :: rest =>
      rw [penPoints] at h
      obtain ⟨p, hp, h⟩ := bind_eq_ok.1 h
      obtain ⟨ps, hps, h⟩ := bind_eq_ok.1 h
      cases h
      have d1 := penPoint_drawn hel hp
      have d2 := ih (fun hh => hl (List.mem_cons_of_mem _ hh)) (by simp) hps
      exact ⟨by simp [d1.1], fun q hq => (List.mem_append.1 hq).elim (d1.2 q) (d2.2 q)⟩

theorem mergeEnds_drawn {c : Contour PD} (h : Drawn c) : Drawn (mergeEnds c) := by
  unfold mergeEnds
  split
  · rename_i first q rest
    split
    · split
      · refine ⟨by simp, fun p hp => ?_⟩
        rcases List.mem_cons.1 hp with rfl | hp
        · exact h.2 first (List.mem_cons_self ..)
        · exact h.2 p (List.mem_cons_of_mem _ (List.dropLast_subset _ hp))
      · exact h
    · exact h
  · exact h

theorem splitLoop_drawn (l : List PenOp) : ∀ {ko ko' : List (List PenOp)} {kc kc' : List PenOp},
    (∀ k ∈ ko, k ≠ [] ∧ .close ∉ k) → .close ∉ kc → splitLoop ko kc l = .ok (ko', kc') →
    (∀ k ∈ ko', k ≠ [] ∧ .close ∉ k) ∧ .close ∉ kc' := by
  induction l with
  | nil =>
    intro ko ko' kc kc' h1 h2 h
    cases h
    exact ⟨h1, h2⟩
  | cons p l ih =>
    intro ko ko' kc kc' h1 h2 h
    have other : ∀ q : PenOp, q ≠ .close → splitLoop ko (kc ++ [q]) l = .ok (ko', kc') →
        (∀ k ∈ ko', k ≠ [] ∧ .close ∉ k) ∧ .close ∉ kc' := by
      intro q hq h
      refine ih h1 ?_ h
      simp only [List.mem_append, List.mem_singleton, not_or]
      exact ⟨h2, Ne.symm hq⟩
    cases p with
    | moveTo p =>
      rw [splitLoop] at h
      refine ih ?_ (by simp) h
      split
      · exact h1
      · rename_i hk
        intro k hk'
        rcases List.mem_append.1 hk' with hk' | hk'
        · exact h1 k hk'
        · rw [List.mem_singleton.1 hk']
          exact ⟨by simpa using hk, h2⟩
    | close =>
      unfold splitLoop at h
      simp only at h
      split at h
      · refine ih h1 ?_ h
        simp only [List.mem_cons, not_or] at h2 ⊢
        exact ⟨by simp, h2.2⟩
      · cases h
    | lineTo p => exact other _ (by simp) h
    | quadTo a p => exact other _ (by simp) h
    | curveTo a b p => exact other _ (by simp) h

/-- An outline made of a kurbo path can be saved exactly if the path has two elements or more. -/
theorem C94_kurbo {path : List PathEl} {o : Outline PD} (h : outlineFromKurbo path = .ok o) :
    (∀ c ∈ o, Savable c) ↔ 2 ≤ path.length := by
  unfold outlineFromKurbo splitPenOperations at h
  rw [List.length_map] at h
  by_cases h2 : path.length ≤ 1
  · rw [if_pos h2] at h
    cases h
    refine ⟨fun hh => ?_, fun hh => by omega⟩
    obtain ⟨⟨p, hp, -⟩, -⟩ := hh [] (List.mem_singleton.2 rfl)
    cases hp
  · rw [if_neg h2] at h
    refine ⟨fun _ => by omega, fun _ => ?_⟩
    obtain ⟨ks, hks, h⟩ := bind_eq_ok.1 h
    obtain ⟨⟨ko, kc⟩, hs, hks⟩ := bind_eq_ok.1 hks
    obtain ⟨d1, d2⟩ := splitLoop_drawn _ (by simp) (by simp) hs
    cases hks
    have hk : ∀ k ∈ (if kc.isEmpty then ko else ko ++ [kc]), k ≠ [] ∧ .close ∉ k := by
      split
      · exact d1
      · rename_i hne
        intro k hk
        rcases List.mem_append.1 hk with hk | hk
        · exact d1 k hk
        · rw [List.mem_singleton.1 hk]
          exact ⟨by simpa using hne, d2⟩
    have hf := (mapM'_iff (fun _ _ => Iff.rfl) _ _).1 h
    intro c hc
    obtain ⟨k, hkm, hkc⟩ := forall₂_mem_right hf hc
    obtain ⟨hne, hcl⟩ := hk k hkm
    match k with
    | [] => exact absurd rfl hne
    | first :: rest =>
      unfold penContour at hkc
      simp only at hkc
      obtain ⟨d, hd, e⟩ := bind_eq_ok.1 hkc
      cases e
      exact (mergeEnds_drawn (penPoints_drawn _ hcl hne hd)).savable

theorem skPointAt_drawn {first prev cur : SkPt} {c d : Contour PD} {i : Nat} {b : Bool}
    (hc : ∀ p ∈ c, p.ptype = .move ∨ p.ptype = .line ∨ p.ptype = .curve) (h : skPointAt first prev c i b cur = .ok d) : Drawn d := by
  have push : ∀ q : Point PD, (q.ptype = .move ∨ q.ptype = .line ∨ q.ptype = .curve) → Drawn (c ++ [q]) := by
    intro q hq
    refine ⟨by simp, fun p hp => ?_⟩
    rcases List.mem_append.1 hp with hp | hp
    · exact hc p hp
    · rw [List.mem_singleton.1 hp]; exact hq
  unfold skPointAt at h
  obtain ⟨p0, -, h⟩ := bind_eq_ok.1 h
  simp only at h
  split at h
  · rename_i e
    cases h
    exact push _ (Or.inl e)
  · rename_i e
    obtain ⟨p1, -, h⟩ := bind_eq_ok.1 h
    have fin : ∀ (c0 : Point PD) (cs : Contour PD) (pt c0' : Point PD), c = c0 :: cs → pt.ptype = .curve → c0'.ptype = c0.ptype →
        (do
          let p2 ← Out.unwrap cur.points[2]?
          .ok (({ c0' with b := Handle.ofSk p2 } : Point PD) :: cs ++ [pt]) : R (Contour PD)) = .ok d → Drawn d := by
      intro c0 cs pt c0' hcs hpt hc0 h'
      subst hcs
      obtain ⟨p2, -, h'⟩ := bind_eq_ok.1 h'
      cases h'
      refine ⟨by simp, fun p hp => ?_⟩
      rcases List.mem_append.1 hp with hp | hp
      · rcases List.mem_cons.1 hp with rfl | hp
        · rw [show ({ c0' with b := Handle.ofSk p2 } : Point PD).ptype = c0.ptype from hc0]
          exact hc c0 (List.mem_cons_self ..)
        · exact hc p (List.mem_cons_of_mem _ hp)
      · rw [List.mem_singleton.1 hp, hpt]; simp
    have closing : ∀ pt : Point PD, pt.ptype = .curve →
        (if b = true then
          match (generalizing := false) c with
          | [] => .panic
          | c0 :: cs =>
            if first.ptype = PointType.curve then do
              let h ← Out.unwrap first.points[1]?
              let c0 ← Out.ok { c0 with a := Handle.ofSk h }
              let p2 ← Out.unwrap cur.points[2]?
              .ok ({ c0 with b := Handle.ofSk p2 } :: cs ++ [pt])
            else do
              let c0 ← Out.ok c0
              let p2 ← Out.unwrap cur.points[2]?
              .ok ({ c0 with b := Handle.ofSk p2 } :: cs ++ [pt])
        else .ok (c ++ [pt]) : R (Contour PD)) = .ok d → Drawn d := by
      intro pt hpt h
      split at h
      · split at h
        · cases h
        · rename_i c0 _ _ _ _
          split at h
          · obtain ⟨u, -, h⟩ := bind_eq_ok.1 h
            rw [Out.bind_ok] at h
            exact fin _ _ pt { c0 with a := Handle.ofSk u } rfl hpt rfl h
          · rw [Out.bind_ok] at h
            exact fin _ _ pt _ rfl hpt rfl h
      · cases h
        exact push _ (Or.inr (Or.inr hpt))
    split at h
    · obtain ⟨u, -, h⟩ := bind_eq_ok.1 h
      rw [Out.bind_ok] at h
      exact closing _ e h
    · rw [Out.bind_ok] at h
      exact closing _ e h
  · rename_i e
    split at h
    · obtain ⟨u, -, h⟩ := bind_eq_ok.1 h
      cases h
      exact push _ (Or.inr (Or.inr rfl))
    · cases h
      exact push _ (Or.inr (Or.inl e))
  · cases h

theorem skPoints_drawn {first : SkPt} (l : List SkPt) : ∀ {prev : SkPt} {c d : Contour PD} {i : Nat},
    (∀ p ∈ c, p.ptype = .move ∨ p.ptype = .line ∨ p.ptype = .curve) → skPoints first prev c i l = .ok d →
    (l ≠ [] ∨ c ≠ []) → Drawn d := by
  induction l with
  | nil =>
    intro prev c d i hc h hne
    cases h
    exact ⟨hne.elim (fun h => absurd rfl h) id, hc⟩
  | cons cur l ih =>
    intro prev c d i hc h _
    rw [skPoints] at h
    obtain ⟨c', hc', h⟩ := bind_eq_ok.1 h
    have d1 := skPointAt_drawn hc hc'
    exact ih d1.2 h (Or.inr d1.1)

theorem fixupOpen_drawn {c d : Contour PD} {last : SkPt} (hc : Drawn c) (h : fixupOpen c last = .ok d) : Drawn d := by
  unfold fixupOpen at h
  obtain ⟨f, -, h⟩ := bind_eq_ok.1 h
  obtain ⟨lp, -, h⟩ := bind_eq_ok.1 h
  have push : ∀ q : Point PD, (q.ptype = .move ∨ q.ptype = .line ∨ q.ptype = .curve) → Drawn (c ++ [q]) := by
    intro q hq
    refine ⟨by simp, fun p hp => ?_⟩
    rcases List.mem_append.1 hp with hp | hp
    · exact hc.2 p hp
    · rw [List.mem_singleton.1 hp]; exact hq
  have fin : ∀ c' : Contour PD, Drawn c' →
      (match (generalizing := false) c' with
        | c0 :: c1 :: rest =>
          if (Flt.feq c1.x f.x && Flt.feq c1.y f.y) = true then .ok ({ c0 with a := c1.a, b := c1.b } :: rest) else .ok c'
        | _ => .ok c' : R (Contour PD)) = .ok d → Drawn d := by
    intro c' d1 h
    split at h
    · rename_i c0 c1 rest
      split at h
      · cases h
        refine ⟨by simp, fun p hp => ?_⟩
        rcases List.mem_cons.1 hp with rfl | hp
        · exact d1.2 c0 (List.mem_cons_self ..)
        · exact d1.2 p (List.mem_cons_of_mem _ (List.mem_cons_of_mem _ hp))
      · cases h; exact d1
    · cases h; exact d1
  simp only at h
  split at h
  · split at h
    · rw [Out.bind_ok] at h
      exact fin _ (push _ (by simp)) h
    · rw [Out.bind_ok] at h
      exact fin _ (push _ (by simp)) h
    · cases h
  · rw [Out.bind_ok] at h
    exact fin _ hc h

/-- An outline made of a Skia path can be saved. -/
theorem C94_skia {conic : ConicToQuads} {path : List SkEl} {o : Outline PD} (h : outlineFromSkia conic path = .ok o) :
    ∀ c ∈ o, Savable c := by
  unfold outlineFromSkia at h
  obtain ⟨o1, -, h⟩ := bind_eq_ok.1 h
  obtain ⟨o2, -, h⟩ := bind_eq_ok.1 h
  have hf := (mapM'_iff (fun _ _ => Iff.rfl) _ _).1 h
  intro c hc
  obtain ⟨k, -, hkc⟩ := forall₂_mem_right hf hc
  match k with
  | [] => cases hkc
  | first :: rest =>
    unfold fromSkContour at hkc
    obtain ⟨d, hd, hkc⟩ := bind_eq_ok.1 hkc
    have dd := skPoints_drawn _ (by simp) hd (Or.inl (by simp))
    split at hkc
    · exact (fixupOpen_drawn dd hkc).savable
    · cases hkc; exact dd.savable

/-- An open contour that is reversed, refigured, closed, shortened and joined with another one. -/
example (near : SmoothTest) : ∃ c d e : Contour Unit, Savable c ∧ EditedTo near c d ∧ c.length = 3 ∧ d.length = 4 ∧
    Edited near (.append e) c d ∧ ∃ r, EditedTo near c r ∧ r.length = 2 ∧ Edited near (.delete 0) c r := by
  refine ⟨[Sample.pt .move 0 0, Sample.pt .line 10 0, Sample.pt .line 10 10], _, [Sample.pt .line 0 10], ?_,
    .step .refl (x := .append [Sample.pt .line 0 10]) ?_ (.append rfl), rfl, rfl, .append rfl, _,
    .step .refl (x := .delete 0) ?_ (.delete rfl), rfl, .delete rfl⟩
  · refine ⟨⟨_, List.mem_cons_self .., by simp [Sample.pt]⟩, ?_⟩
    simp [Sample.pt]
  · intro p hp
    rw [List.mem_singleton.1 hp]
    simp [Sample.pt]
  · exact ⟨1, by omega, _, rfl, by simp [Sample.pt]⟩

end GP
