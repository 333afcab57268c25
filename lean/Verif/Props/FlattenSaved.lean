import Verif.Props.Flatten
import Verif.Props.ResaveExact
import Verif.Props.SkiaSaved
/-!
# Saving flattened glyphs (C121)
-/
open Fl
namespace GP
open Spec
variable {PD D : Type}

theorem movedThrough_ptype : ∀ {ms : List Affine} {p q : Point PD}, MovedThrough ms p q → q.ptype = p.ptype
  | [], _, _, h => by
    unfold MovedThrough at h
    rw [h]
  | _ :: _, _, _, h => by
    obtain ⟨r, h1, h2⟩ := h
    rw [movedThrough_ptype h2, h1.ptype]

theorem moved_types {ms : List Affine} {c c' : Contour PD} (h : List.Forall₂ (MovedThrough ms) c c') :
    c'.map (·.ptype) = c.map (·.ptype) := by
  induction h with
  | nil => rfl
  | cons h1 _ ih => rw [List.map_cons, List.map_cons, ih, movedThrough_ptype h1]

/-- What is said of the types of the points of the contours of flattened glyphs is said of those of their components. -/
theorem drawnNodes_types {ns : List (List Affine × Component PD D)} {o : Outline PD} (h : DrawnNodes ns o)
    (P : List PointType → Prop) :
    (∀ c ∈ o, P (c.map (·.ptype))) ↔ ∀ x ∈ ns, ∀ c ∈ x.2.glif.outline.getD [], P (c.map (·.ptype)) := by
  obtain ⟨os, h1, rfl⟩ := h
  induction h1 with
  | nil => simp
  | @cons x o ns os hx _ ih =>
    have key : (∀ c ∈ o, P (c.map (·.ptype))) ↔ ∀ c ∈ x.2.glif.outline.getD [], P (c.map (·.ptype)) := by
      unfold DrawnNode at hx
      clear ih
      generalize x.2.glif.outline.getD [] = o0 at hx
      induction hx with
      | nil => simp
      | cons hc _ ih => simp [ih, moved_types hc]
    rw [List.flatten_cons]
    constructor
    · intro hp y hy
      rcases List.mem_cons.mp hy with rfl | hy
      · exact key.mp fun c hc => hp c (List.mem_append_left _ hc)
      · exact ih.mp (fun c hc => hp c (List.mem_append_right _ hc)) y hy
    · intro hp c hc
      rcases List.mem_append.mp hc with hc | hc
      · exact key.mpr (hp x (by simp)) c hc
      · exact ih.mpr (fun y hy => hp y (by simp [hy])) c hc

theorem cubicTypes_iff (c : Contour PD) : (c ≠ [] ∧ Cubic c) ↔
    (c.map (·.ptype) ≠ [] ∧ ∀ t ∈ c.map (·.ptype), t = .move ∨ t = .line ∨ t = .curve) := by
  unfold Cubic
  simp

theorem moveFirstTypes_iff (c : Contour PD) : MoveFirst c ↔ ∀ t ∈ (c.map (·.ptype)).tail, t ≠ .move := by
  unfold MoveFirst
  cases c with
  | nil => simp
  | cons p c => simp

theorem flattened_saveable {toC : GlifComponent → R (Component PD D)} {n : Nat} {g g' : Glif PD D}
    {rects : List ComponentRect} {ts : List (Tree (Component PD D))} (pio : PlistIO D)
    (h : g.flattened toC n = some (.ok (g', rects))) (ht : g.components.forest toC n = some (.ok ts))
    (hw : ∀ w, g.width = some w → w < 2 ^ 64) :
    Saveable pio g' ↔
      (∀ x ∈ ts.flatMap (lastFirst (·.matrix)), ∀ c ∈ x.2.glif.outline.getD [], c ≠ [] ∧ Cubic c) ∧
      (∀ a ∈ g.anchors, ∀ s, a.cls = some s → s ≠ [] ∧ ∀ c ∈ s, ¬ Control c) ∧ LibSurvives pio g.lib := by
  obtain ⟨-, -, ea, -, -, ew, -, -, el, -⟩ := C25_other_fields h
  obtain ⟨o, ho, eo⟩ := C22_order h ht
  have key := drawnNodes_types ho fun l => l ≠ [] ∧ ∀ t ∈ l, t = .move ∨ t = .line ∨ t = .curve
  simp only [← cubicTypes_iff] at key
  rw [← key]
  constructor
  · intro hs
    exact ⟨hs.contours o eo, ea ▸ hs.classes, el ▸ hs.lib⟩
  · rintro ⟨h1, h2, h3⟩
    refine ⟨?_, ew ▸ hw, ea ▸ h2, el ▸ h3⟩
    intro o' ho'
    rw [eo] at ho'
    cases ho'
    exact h1

/-- **C121.** A flattened glyph saved and read again is what it was (up to `Resaved`) if and only if the contours of its
components and of their components have points, all of lines and cubic curves, its anchors' classes are not empty and
free of control characters, and its lib survives the plist library. -/
theorem C121_exact {toC : GlifComponent → R (Component PD D)} {n : Nat} {g g' : Glif PD D}
    {rects : List ComponentRect} {ts : List (Tree (Component PD D))} (mid : IOF → IOF → IOF) (pio : PlistIO D)
    (h : g.flattened toC n = some (.ok (g', rects))) (ht : g.components.forest toC n = some (.ok ts))
    (hw : ∀ w, g.width = some w → w < 2 ^ 64) :
    (∃ g'', gtrip mid pio g' = .ok g'' ∧ Resaved g' g'') ↔
      (∀ x ∈ ts.flatMap (lastFirst (·.matrix)), ∀ c ∈ x.2.glif.outline.getD [], c ≠ [] ∧ Cubic c) ∧
      (∀ a ∈ g.anchors, ∀ s, a.cls = some s → s ≠ [] ∧ ∀ c ∈ s, ¬ Control c) ∧ LibSurvives pio g.lib := by
  have ew : g'.width = g.width := (C25_other_fields h).2.2.2.2.2.1
  rw [C01_exact mid pio g' (ew ▸ hw), flattened_saveable pio h ht hw]

theorem unfolds_visited {mid : IOF → IOF → IOF} {pio : PlistIO D} {files : Files} {cs : List GlifComponent}
    {ts : List (Tree (Component PD D))} (h : List.Forall₂ (Unfolds PD mid pio files) cs ts) :
    ∀ x ∈ ts.flatMap (lastFirst (·.matrix)), ∃ f g, Holds PD mid pio files f g ∧ x.2.glif.outline = g.outline := by
  induction h with
  | nil => simp
  | @cons c t cs ts ht _ ih =>
    intro x hx
    rw [List.flatMap_cons] at hx
    rcases List.mem_append.mp hx with hx | hx
    · cases ht with
      | mk f g file holds name filename outline anchors matrix children =>
        unfold lastFirst at hx
        rcases List.mem_cons.mp hx with rfl | hx
        · exact ⟨f, g, holds, outline⟩
        · obtain ⟨t', ht', rfl⟩ := List.mem_map.mp hx
          rw [List.mem_reverse] at ht'
          clear ih hx holds
          generalize g.components.vec.map (located f) = cs' at children
          generalize t.children = ts' at ht' children
          induction children with
          | nil => exact absurd ht' List.not_mem_nil
          | cons hd _ ih =>
            rcases List.mem_cons.mp ht' with rfl | ht'
            · cases hd with
              | mk f g _ holds _ _ outline _ _ _ => exact ⟨f, g, holds, outline⟩
            · exact ih ht'
    · exact ih x hx

/-- **C121.** In a font all of whose files have contours of lines and cubic curves that begin with their only move point if
any, a glyph that can be saved can be flattened and then saved any number of times, and each of the contours flattening
gave draws the same pieces in the same order, up to the one they begin with and to the signs of zeros. -/
theorem C121_font (mid : IOF → IOF → IOF) (pio : PlistIO D) (files : Files) {n : Nat} {g g' : Glif PD D}
    {rects : List ComponentRect} (h : g.flattened (fun c => c.toComponent mid pio files) n = some (.ok (g', rects)))
    (hs : Saveable pio g)
    (hf : ∀ f (g0 : Glif PD D), Holds PD mid pio files f g0 → ∀ c ∈ g0.outline.getD [], c ≠ [] ∧ Cubic c ∧ MoveFirst c)
    (k : Nat) :
    ∃ g'', gtrips mid pio (k + 1) g' = .ok g'' ∧
      List.Forall₂ (fun c c' => openContour c' = openContour c ∧ Rotated ((wantedStrokes c).map Stroke.unsigned) (wantedStrokes c'))
        ((g'.outline.getD []).filter fun c => !loneMove c) (g''.outline.getD []) := by
  obtain ⟨ts, ht, -, -⟩ := flattened_ok h
  have hv := unfolds_visited (C21_unfolding ht)
  have hp : ∀ x ∈ ts.flatMap (lastFirst (·.matrix)), ∀ c ∈ x.2.glif.outline.getD [], c ≠ [] ∧ Cubic c ∧ MoveFirst c := by
    intro x hx c hc
    obtain ⟨f, g0, h1, h2⟩ := hv x hx
    exact hf f g0 h1 c (h2 ▸ hc)
  have hs' : Saveable pio g' := (flattened_saveable pio h ht hs.width).mpr
    ⟨fun x hx c hc => ⟨(hp x hx c hc).1, (hp x hx c hc).2.1⟩, hs.classes, hs.lib⟩
  refine C113_saved mid pio g' hs' ?_ k
  obtain ⟨o, ho, eo⟩ := C22_order h ht
  rw [eo]
  have key := drawnNodes_types ho fun l => ∀ t ∈ l.tail, t ≠ .move
  simp only [← moveFirstTypes_iff] at key
  exact key.mpr fun x hx c hc => (hp x hx c hc).2.2

section samples
variable (mid : IOF → IOF → IOF) (pio : PlistIO D)

/-- The contours of the sample font are squares. -/
theorem sample_squares (f : Path) (g : Glif Unit D) (hg : Holds Unit mid pio (fontOf pio (sfont D)) f g) :
    ∀ c ∈ g.outline.getD [], c = square := by
  intro c hc
  match hlk : (sfont D).lookup f with
  | none =>
    obtain ⟨e, he, -⟩ := hg
    unfold fontOf at he
    rw [hlk] at he
    cases he
  | some g0 =>
    have hm := lookup_mem hlk
    rw [holds_fontOf_eq hlk (sfont_ok pio _ hm).1 hg] at hc
    simp only [sfont, List.mem_cons, List.not_mem_nil, or_false, Prod.mk.injEq] at hm
    rcases hm with ⟨-, rfl⟩ | ⟨-, rfl⟩ | ⟨-, rfl⟩
    · rw [(saved_sglyph "a" [] (some [square]) (Or.inr rfl)).1] at hc
      exact List.mem_singleton.1 hc
    · rw [(saved_sglyph "b" [sref "a" 20] none (Or.inl ⟨rfl, by simp⟩)).1] at hc
      cases hc
    · rw [(saved_sglyph "c" [sref "b" 5, sref "a" 100] none (Or.inl ⟨rfl, by simp⟩)).1] at hc
      cases hc

/-- The hypotheses of `C121_exact` and `C121_font` can be met, by a glyph that refers to `b` and `a` in the sample font. -/
example : ∃ g' rects ts, (userOf D ["b", "a"]).flattened (sresolve mid pio) 3 = some (.ok (g', rects)) ∧
    (userOf D ["b", "a"]).components.forest (sresolve mid pio) 3 = some (.ok ts) ∧
    (∀ w, (userOf D ["b", "a"]).width = some w → w < 2 ^ 64) ∧ Saveable pio (userOf D ["b", "a"]) ∧
    ∀ f (g0 : Glif Unit D), Holds Unit mid pio (fontOf pio (sfont D)) f g0 →
      ∀ c ∈ g0.outline.getD [], c ≠ [] ∧ Cubic c ∧ MoveFirst c := by
  refine ⟨_, _, _, user_flattened mid pio (sample_ba mid pio), sample_ba mid pio, fun w hw => (nomatch hw), ?_, ?_⟩
  · refine ⟨?_, fun w hw => (nomatch hw), fun a ha => (nomatch ha), trivial⟩
    intro o ho c hc
    cases ho
    cases List.mem_singleton.1 hc
    exact ⟨by simp [square], by simp [square, Cubic, Sample.pt]⟩
  · intro f g0 hg c hc
    rw [sample_squares mid pio f g0 hg c hc]
    exact ⟨by simp [square], by simp [square, Cubic, Sample.pt], by simp [square, MoveFirst, Sample.pt]⟩

end samples

end GP
