import Verif.Props.FileContours
import Verif.Props.Sample
/-!
# Saving and reading again: components and images (C40), guidelines (C41), whole glyphs (C01, C02)
-/
open Fl
namespace GP
open Spec
variable {PD D : Type}

theorem reread_same (x : IOF) : SameNumber x x.reread :=
  ⟨IOF.reread_toF32 x, fun i h e => by subst e; exact IOF.reread_int i h⟩

theorem matrix_same (m : Mat6) : SameMatrix m m.reread :=
  ⟨reread_same _, reread_same _, reread_same _, reread_same _, reread_same _, reread_same _⟩

/-! ## C40, C41 -/

/-- **C40**, components. -/
theorem C40_component (c : GlifComponent) :
    ∃ d, readComponent (componentXml c) = .ok d ∧ SameComponent c d :=
  ⟨_, readComponent_written c, rfl, rfl, rfl, matrix_same _⟩

/-- **C40**, images, without the colour. -/
theorem C40_image_partial (i : GlifImage) : ∃ j, readImage (imageXml i) = .ok j ∧ SameImage i j ∧ j.color = none :=
  ⟨_, readImage_written i, ⟨rfl, rfl, matrix_same _⟩, rfl⟩

/-- C40 as stated is false: the colour of an image is not written. -/
theorem C40_false : ∃ i j : GlifImage, i.color ≠ none ∧ readImage (imageXml i) = .ok j ∧ j.color = none := by
  refine ⟨{ GlifImage.fromFilename "a.png".toList with color := some ⟨.int 1, .int 0, .int 0, .int 1⟩ }, _, by simp,
    readImage_written _, rfl⟩

/-- A further loss: a large coefficient is printed with as many digits as its `f32` needs and read back as an
integer, so that its value as an `f64`, which is what the matrices are made of, changes. -/
theorem C40_large_offset : ∃ c d : GlifComponent, readComponent (componentXml c) = .ok d ∧
    d.m.xOffset.toF64 ≠ c.m.xOffset.toF64 := by
  have h : ∃ x : IOF, x.reread.toF64 ≠ x.toF64 := ⟨.float (Flt.ofInt b32 123456792), by decide +kernel⟩
  obtain ⟨x, h⟩ := h
  exact ⟨{ GlifComponent.new with m := { GlifComponent.new.m with xOffset := x } }, _, readComponent_written _, h⟩

/-- **C41.** -/
theorem C41_guideline (g : Guideline) : ∃ h, readGuideline (guidelineXml g) = .ok h ∧ SameGuideline g h := by
  refine ⟨_, readGuideline_written g, rfl, rfl, rfl, rfl, reread_same _, ?_⟩
  cases g.color with
  | none => exact .none
  | some c => exact .some ⟨reread_same _, reread_same _, reread_same _, reread_same _⟩

/-! ## C01 -/

theorem forall₂_map {α : Type} {rel : α → α → Prop} {f : α → α} (h : ∀ a, rel a (f a)) (l : List α) :
    List.Forall₂ rel l (l.map f) := by
  induction l with
  | nil => exact .nil
  | cons a l ih => exact .cons (h a) ih

theorem savedGuideline_same (g : Guideline) : SameGuideline g (savedGuideline g) := by
  obtain ⟨h, e, hs⟩ := C41_guideline g
  rw [readGuideline_written g] at e
  cases e
  exact hs

theorem resaved_saved (g : Glif PD D) : Resaved g (saved g) where
  name := rfl
  width := rfl
  unicode := rfl
  anchors := forall₂_map (fun a => ⟨rfl, rfl, rfl, by
    simp only [savedAnchor]
    unfold AnchorType.ofClass
    cases a.cls with
    | none => simp
    | some s => cases s with
      | nil => simp
      | cons c s => by_cases h : c = '_' <;> simp [h]⟩) _
  guidelines := forall₂_map savedGuideline_same _
  images := forall₂_map (fun i => ⟨rfl, rfl, matrix_same _⟩) _
  imageColors := by
    intro i hi
    obtain ⟨j, _, rfl⟩ := List.mem_map.1 hi
    rfl
  components := forall₂_map (fun i => ⟨rfl, rfl, rfl, matrix_same _⟩) _
  componentRoot := ⟨rfl, rfl⟩
  note := rfl
  lib := rfl
  filename := rfl
  outline := by
    unfold saved
    simp only []
    split
    · rfl
    next h =>
      cases hr : resavedOutline (g.outline.getD []) with
      | nil => rfl
      | cons a l => simp [hr] at h
  outlineNone := by
    unfold saved
    simp only []
    split
    next h =>
      simp only [reduceCtorEq, false_iff]
      rintro ⟨h1, h2⟩
      simp [h1, h2] at h
    next h =>
      simp only [true_iff]
      simpa using h

/-- **C01**, for glyphs whose contours are cubic.  Missing: quadratic contours, for which it is false
(`C01_false`). -/
theorem C01_partial (mid : IOF → IOF → IOF) (pio : PlistIO D) (g : Glif PD D) (h : Saveable pio g) :
    ∃ g', (glifXml pio g >>= readGlif mid pio {}) = .ok g' ∧ Resaved g g' :=
  ⟨_, glif_trip mid pio g h, resaved_saved g⟩

/-- One save and load of a glyph. -/
def gtrip (mid : IOF → IOF → IOF) (pio : PlistIO D) (g : Glif PD D) : R (Glif PD D) :=
  glifXml pio g >>= readGlif mid pio {}

/-- `k` saves and loads. -/
def gtrips (mid : IOF → IOF → IOF) (pio : PlistIO D) : Nat → Glif PD D → R (Glif PD D)
  | 0, g => .ok g
  | k + 1, g => gtrip mid pio g >>= gtrips mid pio k

/-- C01 as stated is false: this writable glyph (one closed quadratic contour of two points) comes back as
one that cannot be written at all. -/
theorem C01_false (mid : IOF → IOF → IOF) (pio : PlistIO D) :
    ∃ g : Glif PD D, (∀ c ∈ g.outline.getD [], c ≠ [] ∧ ∀ p ∈ c, p.ptype = .qcurve) ∧
      ∃ g', gtrip mid pio g = .ok g' ∧ glifXml pio g' = .panic ∧ ¬ Resaved g g' := by
  let p : Point PD := { x := Sample.f 0, y := Sample.f 0, ptype := .qcurve, b := .at (Sample.f 3) (Sample.f 4) }
  let q : Point PD := { x := Sample.f 5, y := Sample.f 0, ptype := .qcurve, b := .at (Sample.f 3) (Sample.f (-4)) }
  let g : Glif PD D := { name := "a".toList, outline := some [[p, q]] }
  let gc : GlifContour := [on q, off (Sample.f 3, Sample.f 4), on p, off (Sample.f 3, Sample.f (-4))]
  have e1 : intoGlifpoints [p, q] = .ok gc := by
    rw [intoGlifpoints_cycle (x := off (Sample.f 3, Sample.f 4)) (r := [on p, off (Sample.f 3, Sample.f (-4)), on q])]
    · rfl
    · intro r hr hu
      simp only [List.mem_cons, List.not_mem_nil, or_false] at hr
      rcases hr with rfl | rfl <;> cases hu <;> contradiction
    · rfl
  obtain ⟨root, hroot, hk⟩ : ∃ root, glifXml pio g = .ok root ∧
      root = ⟨"glyph", [("name", "a".toList), ("format", "2".toList)], [.elem "outline" [] [(glifContourXml gc).node]]⟩ := by
    refine ⟨_, ?_, rfl⟩
    simp only [glifXml, outlineXml, g, Out.mapM'_cons, contourXml, e1, Out.bind_ok]
    rfl
  have hcs : ∀ c ∈ contoursOf root, c = glifContourXml gc := by
    rw [hk]; exact fun c hc => List.mem_singleton.1 hc
  have hnum : ∀ x ∈ gc, HasNumber (pointXml x) "x" ∧ HasNumber (pointXml x) "y" := by
    intro x _
    obtain ⟨h1, h2, _⟩ := pointXml_get x
    exact ⟨⟨_, h1, (C79_accepted _).1 ⟨_, IOF.parse_show_eq _⟩⟩, ⟨_, h2, (C79_accepted _).1 ⟨_, IOF.parse_show_eq _⟩⟩⟩
  have hpts : named "point" (glifContourXml gc).children = gc.map pointXml := by
    unfold glifContourXml
    rw [named_nodes "point" "point" pointXml (fun a => by simp), if_pos rfl]
  have ha : Acceptable {} root := by
    subst hk
    refine ⟨rfl, rfl, ⟨_, rfl⟩, ?_, ?_, ?_, ?_, ?_, ?_⟩
    · intro e h; cases h
    · intro e h; cases h
    · intro e h; cases h
    · intro e h; cases h
    · intro e h; cases h
    · intro o ho
      cases ho
      refine ⟨?_, by intro c hc; cases hc⟩
      intro c hc x hx
      have : c = glifContourXml gc := List.mem_singleton.1 hc
      rw [this, hpts] at hx
      obtain ⟨y, hy, rfl⟩ := List.mem_map.1 hx
      exact hnum y hy
  have hon : ∀ x : Point PD, x.ptype = .qcurve → OfType (pointXml (on x)) "qcurve" := by
    intro x hx
    obtain ⟨_, _, _, h3, _⟩ := pointXml_get (on x)
    unfold OfType
    rw [h3]
    have : (on x).ptype = .qcurve := hx
    rw [this]
    decide
  have hqe : ∃ c ∈ contoursOf root, QuadraticEndingOff c := by
    refine ⟨glifContourXml gc, ?_, pointXml (on q), _, pointXml (off (Sample.f 3, Sample.f (-4))), hpts, hon q rfl, rfl, ?_⟩
    · rw [hk]; exact List.mem_singleton.2 rfl
    · intro t ht
      obtain ⟨_, _, _, h3, _⟩ := pointXml_get (off (Sample.f 3, Sample.f (-4)))
      rw [h3, if_pos (by rfl)] at ht
      cases ht
  have hg : gtrip mid pio g = readGlif mid pio {} root := by
    unfold gtrip; rw [hroot, Out.bind_ok]
  refine ⟨g, ?_, ?_⟩
  · intro c hc
    have : c = [p, q] := List.mem_singleton.1 hc
    subst this
    refine ⟨by simp, ?_⟩
    intro r hr
    simp only [List.mem_cons, List.not_mem_nil, or_false] at hr
    rcases hr with rfl | rfl <;> rfl
  · cases hr : readGlif (PD := PD) mid pio {} root with
    | err e => exact absurd ha ((C58_error_iff mid pio {} _).1 ⟨e, hr⟩)
    | panic =>
      obtain ⟨_, c, hcm, x, ps, e, h, _⟩ := (C07_panics_iff mid pio {} _).1 hr
      rw [hcs c hcm, hpts] at e
      have := hon q rfl
      rw [List.map_cons, List.cons.injEq] at e
      rw [e.1] at this
      unfold OfType at this h
      rw [this] at h
      rcases h with h | h | h <;> exact absurd (Option.some.inj h) (by decide)
    | ok g' =>
      have hp := (C06_panics_iff mid pio pio {} root g' hr).2 hqe
      refine ⟨g', by rw [hg, hr], hp, ?_⟩
      intro hs
      obtain ⟨c, hc, hp'⟩ := (glifXml_panic pio g').1 hp
      rw [hs.outline] at hc
      rw [C05_panics_iff] at hp'
      obtain ⟨c0, hc0, rfl⟩ := List.mem_map.1 hc
      have : c0 = [p, q] := List.mem_singleton.1 (List.mem_filter.1 hc0).1
      subst this
      have hst : ((stored [p, q]).map unsigned).map (·.ptype) = [.qcurve, .qcurve] := rfl
      have hall : ∀ r ∈ (stored [p, q]).map unsigned, r.ptype = .qcurve := by
        intro r hr
        have := List.mem_map_of_mem (f := fun x : Point PD => x.ptype) hr
        rw [hst] at this
        simpa using this
      rcases hp' with h | ⟨r, hr, h⟩
      · have := List.mem_cons_self (a := unsigned (kept p q)) (l := [unsigned (kept q p)])
        have h1 := h _ this
        rw [hall _ this] at h1; cases h1
      · rw [hall r hr] at h
        rcases h with h | h <;> cases h

/-! ## C02 -/

theorem unsignedHandle_idem (h : Handle) : unsignedHandle (unsignedHandle h) = unsignedHandle h := by
  cases h <;> simp [unsignedHandle, Flt.normZero_idem]

theorem unsigned_idem (p : Point PD) : unsigned (unsigned p) = unsigned p := by
  simp [unsigned, unsignedHandle_idem, Flt.normZero_idem]

theorem kept_unsigned (p n : Point PD) : kept (unsigned p) (unsigned n) = unsigned (kept p n) := by
  obtain ⟨x, y, a, b, name, ptype, smooth, data⟩ := p
  cases a <;> cases b <;> by_cases h1 : n.ptype = .curve <;> by_cases h2 : ptype = .curve <;>
    simp [kept, unsigned, outPos, inPos, unsignedHandle, h1, h2]

theorem keptContour_unsigned (c : Contour PD) : keptContour (c.map unsigned) = (keptContour c).map unsigned := by
  cases c with
  | nil => rfl
  | cons p rest =>
    simp only [keptContour, List.map_cons]
    have : unsigned p :: rest.map unsigned = (p :: rest).map unsigned := rfl
    rw [this, show rest.map unsigned ++ [unsigned p] = (rest ++ [p]).map unsigned by simp, List.zipWith_map, List.map_zipWith]
    simp only [kept_unsigned]

/-- A contour that a save changes no more, but for its start. -/
def Fixed (c : Contour PD) : Prop :=
  c ≠ [] ∧ Cubic c ∧ loneMove c = false ∧ keptContour c = c ∧ c.map unsigned = c

theorem loneMove_map (f : Point PD → Point PD) (hf : ∀ p, (f p).ptype = p.ptype) (c : Contour PD) :
    loneMove (c.map f) = loneMove c := by
  rcases c with _ | ⟨p, _ | ⟨q, r⟩⟩ <;> simp [loneMove, hf]

theorem loneMove_types {c d : Contour PD} (h : c.map (·.ptype) = d.map (·.ptype)) : loneMove c = loneMove d := by
  rcases c with _ | ⟨p, _ | ⟨q, r⟩⟩ <;> rcases d with _ | ⟨p', _ | ⟨q', r'⟩⟩ <;> simp_all [loneMove]

theorem cubic_types {c d : Contour PD} (h : c.map (·.ptype) = d.map (·.ptype)) (hd : Cubic d) : Cubic c := by
  intro p hp
  have : p.ptype ∈ d.map (·.ptype) := h ▸ List.mem_map_of_mem hp
  obtain ⟨q, hq, e⟩ := List.mem_map.1 this
  rw [← e]; exact hd q hq

theorem cubic_startEarlier {c : Contour PD} (h : Cubic c) : Cubic (startEarlier c) :=
  fun p hp => h p (mem_startEarlier.1 hp)

theorem loneMove_startEarlier (c : Contour PD) : loneMove (startEarlier c) = loneMove c := by
  rcases c with _ | ⟨p, _ | ⟨q, r⟩⟩
  · rfl
  · rfl
  · have h1 : loneMove (p :: q :: r) = false := rfl
    have h2 : (startEarlier (p :: q :: r)).length = r.length + 2 := by rw [startEarlier_length]; rfl
    rw [h1]
    rcases hs : startEarlier (p :: q :: r) with _ | ⟨a, _ | ⟨b, t⟩⟩
    · rw [hs] at h2; simp at h2
    · rw [hs] at h2; simp at h2
    · rfl

theorem startEarlier_ne {c : Contour PD} (h : c ≠ []) : startEarlier c ≠ [] := by
  intro e
  have := startEarlier_length c
  rw [e] at this
  exact h (List.length_eq_zero_iff.1 this.symm)

theorem fixed_startEarlier {c : Contour PD} (h : Fixed c) : Fixed (startEarlier c) := by
  obtain ⟨h1, h2, h3, h4, h5⟩ := h
  refine ⟨startEarlier_ne h1, cubic_startEarlier h2, by rw [loneMove_startEarlier, h3], ?_, ?_⟩
  · rw [keptContour_startEarlier, h4]
  · rw [← startEarlier_map, h5]

theorem fixed_stepBack {c : Contour PD} (h : Fixed c) : Fixed (stepBack c) := by
  unfold stepBack
  split
  · split
    · exact fixed_startEarlier h
    · exact h
  · exact absurd rfl h.1

theorem stored_fixed {c : Contour PD} (h : Fixed c) : (stored c).map unsigned = stepBack c := by
  have h' := fixed_stepBack h
  obtain ⟨h1, h2, h3, h4, h5⟩ := h
  cases c with
  | nil => exact absurd rfl h1
  | cons p rest =>
    unfold stored stepBack at *
    simp only [] at h' ⊢
    split
    next hc => rw [if_pos hc] at h'; rw [h4]; exact h'.2.2.2.2
    next hc => rw [h4]; exact h5

theorem fixed_stored {c : Contour PD} (h1 : c ≠ []) (h2 : Cubic c) (h3 : loneMove c = false) :
    Fixed ((stored c).map unsigned) := by
  have hk : Fixed ((keptContour c).map unsigned) := by
    have ht : ((keptContour c).map unsigned).map (·.ptype) = c.map (·.ptype) := by
      rw [List.map_map]
      exact keptContour_map (fun p => p.ptype) (fun a b => rfl) c
    refine ⟨?_, cubic_types ht h2, (loneMove_types ht).trans h3, ?_, ?_⟩
    · intro e
      rw [e] at ht
      exact h1 (List.map_eq_nil_iff.1 ht.symm)
    · rw [keptContour_unsigned, keptContour_idem]
    · rw [List.map_map]
      exact List.map_congr_left fun p _ => unsigned_idem p
  cases c with
  | nil => exact absurd rfl h1
  | cons p rest =>
    unfold stored
    simp only []
    split
    · rw [← startEarlier_map]; exact fixed_startEarlier hk
    · exact hk

/-- A glyph that a save changes no more, but for the starts of contours. -/
structure Settled (pio : PlistIO D) (g : Glif PD D) : Prop where
  some : ∀ o, g.outline = some o → (∀ c ∈ o, Fixed c) ∧ (o ≠ [] ∨ g.components.vec ≠ [])
  none : g.outline = none → g.components.vec = []
  anchors : g.anchors.map savedAnchor = g.anchors
  components : g.components.vec.map savedComponent = g.components.vec
  componentRoot : g.components = { root := g.name, vec := g.components.vec }
  guidelines : g.guidelines.map savedGuideline = g.guidelines
  images : g.images.map savedImage = g.images
  filename : g.filename = Option.none
  saveable : Saveable pio g

theorem Mat6.reread_idem (m : Mat6) : m.reread.reread = m.reread := by
  simp [Mat6.reread, IOF.reread_idem]

theorem Color.reread_idem (c : Color) : c.reread.reread = c.reread := by
  simp [Color.reread, IOF.reread_idem]

theorem savedAnchor_idem (a : Anchor) : savedAnchor (savedAnchor a) = savedAnchor a := by
  simp [savedAnchor, Flt.normZero_idem]

theorem map_idem {α : Type} {f : α → α} (h : ∀ a, f (f a) = f a) (l : List α) : (l.map f).map f = l.map f := by
  rw [List.map_map]
  exact List.map_congr_left fun a _ => h a

theorem settled_saved {pio : PlistIO D} {g : Glif PD D} (h : Saveable pio g) : Settled pio (saved g) := by
  have hfix : ∀ c ∈ resavedOutline (g.outline.getD []), Fixed c := by
    intro c hc
    obtain ⟨c0, hc0, rfl⟩ := List.mem_map.1 hc
    obtain ⟨hm, hl⟩ := List.mem_filter.1 hc0
    cases ho : g.outline with
    | none => rw [ho] at hm; cases hm
    | some o =>
      rw [ho] at hm
      have := h.contours o ho c0 hm
      exact fixed_stored this.1 this.2 (by simpa using hl)
  have hout : ∀ o, (saved g).outline = some o → o = resavedOutline (g.outline.getD []) ∧ (o ≠ [] ∨ (saved g).components.vec ≠ []) := by
    intro o ho
    unfold saved at ho ⊢
    simp only [] at ho ⊢
    split at ho
    next hh =>
      cases ho
      refine ⟨rfl, ?_⟩
      rw [Bool.or_eq_true] at hh
      rcases hh with hh | hh
      · left; intro e; rw [e] at hh; simp at hh
      · right; intro e; rw [e] at hh; simp at hh
    · cases ho
  refine ⟨?_, ?_, map_idem savedAnchor_idem _, ?_, rfl, ?_, ?_, rfl, ?_⟩
  · intro o ho
    obtain ⟨rfl, h2⟩ := hout o ho
    exact ⟨hfix, h2⟩
  · intro ho
    have := (resaved_saved g).outlineNone.1 ho
    show g.components.vec.map savedComponent = []
    rw [this.2]; rfl
  · exact map_idem (fun c => by simp [savedComponent, Mat6.reread_idem]) _
  · refine map_idem (fun c => ?_) _
    simp only [savedGuideline, IOF.reread_idem]
    cases c.color <;> simp [Color.reread_idem]
  · exact map_idem (fun c => by simp [savedImage, Mat6.reread_idem]) _
  · refine ⟨?_, h.width, ?_, h.lib⟩
    · intro o ho c hc
      obtain ⟨rfl, _⟩ := hout o ho
      exact ⟨(hfix c hc).1, (hfix c hc).2.1⟩
    · intro a ha
      obtain ⟨b, hb, rfl⟩ := List.mem_map.1 ha
      exact h.classes b hb

/-- The glyph with the start of every contour moved `k` times. -/
def stepped (k : Nat) (g : Glif PD D) : Glif PD D := { g with outline := g.outline.map fun o => o.map stepBack^[k] }

theorem settled_step {pio : PlistIO D} {g : Glif PD D} (h : Settled pio g) : Settled pio (stepped 1 g) := by
  have hm : ∀ o, (stepped 1 g).outline = some o → ∃ o', g.outline = some o' ∧ o = o'.map stepBack := by
    intro o ho
    obtain ⟨o', ho', e⟩ := Option.map_eq_some_iff.1 ho
    exact ⟨o', ho', e.symm⟩
  refine ⟨?_, ?_, h.anchors, h.components, h.componentRoot, h.guidelines, h.images, h.filename, ?_⟩
  · intro o ho
    obtain ⟨o', ho', rfl⟩ := hm o ho
    obtain ⟨h1, h2⟩ := h.some o' ho'
    refine ⟨?_, h2.imp (fun hh e => hh (List.map_eq_nil_iff.1 e)) id⟩
    intro c hc
    obtain ⟨c', hc', rfl⟩ := List.mem_map.1 hc
    exact fixed_stepBack (h1 c' hc')
  · intro ho
    exact h.none (Option.map_eq_none_iff.1 ho)
  · refine ⟨?_, h.saveable.width, h.saveable.classes, h.saveable.lib⟩
    intro o ho c hc
    obtain ⟨o', ho', rfl⟩ := hm o ho
    obtain ⟨c', hc', rfl⟩ := List.mem_map.1 hc
    have := fixed_stepBack ((h.some o' ho').1 c' hc')
    exact ⟨this.1, this.2.1⟩

theorem saved_settled {pio : PlistIO D} {g : Glif PD D} (h : Settled pio g) : saved g = stepped 1 g := by
  have ho : (saved g).outline = (stepped 1 g).outline := by
    unfold saved stepped
    simp only []
    rw [h.components]
    cases hg : g.outline with
    | none => simp [resavedOutline, h.none hg]
    | some o =>
      obtain ⟨h1, h2⟩ := h.some o hg
      have hr : resavedOutline o = o.map stepBack := by
        unfold resavedOutline
        rw [List.filter_eq_self.2 fun c hc => by rw [(h1 c hc).2.2.1]; rfl]
        exact List.map_congr_left fun c hc => stored_fixed (h1 c hc)
      simp only [Option.getD_some, hr, Option.map_some]
      rw [if_pos]
      · rfl
      · rw [Bool.or_eq_true]
        rcases h2 with h2 | h2
        · left; cases o with
          | nil => exact absurd rfl h2
          | cons a l => rfl
        · right; cases hv : g.components.vec with
          | nil => exact absurd hv h2
          | cons a l => rfl
  obtain ⟨outline, anchors, components, guidelines, images, width, unicode, name, note, filename, lib⟩ := g
  have h1 := h.anchors
  have h2 := h.components
  have h3 := h.componentRoot
  have h4 := h.guidelines
  have h5 := h.images
  have h6 := h.filename
  simp only at h1 h2 h3 h4 h5 h6
  unfold saved stepped at *
  simp only [] at ho ⊢
  rw [ho, h1, h2, h4, h5, h6, ← h3]

theorem stepped_stepped (j k : Nat) (g : Glif PD D) : stepped j (stepped k g) = stepped (k + j) g := by
  unfold stepped
  cases g.outline with
  | none => rfl
  | some o =>
    simp only [Option.map_some, List.map_map, Nat.add_comm k j]
    congr 2
    apply List.map_congr_left
    intro c _
    rw [Function.iterate_add_apply]; rfl

theorem gtrips_settled (mid : IOF → IOF → IOF) (pio : PlistIO D) (k : Nat) (g : Glif PD D) (h : Settled pio g) :
    gtrips mid pio k g = .ok (stepped k g) := by
  induction k generalizing g with
  | zero =>
    unfold gtrips stepped
    cases g with
    | mk o => cases o <;> simp
  | succ k ih =>
    unfold gtrips gtrip
    rw [glif_trip mid pio g h.saveable, Out.bind_ok, saved_settled h, ih _ (settled_step h), stepped_stepped,
      Nat.add_comm]

/-- C02 as stated is false: the writable quadratic glyph of `C01_false` can be saved once and not again. -/
theorem C02_false (mid : IOF → IOF → IOF) (pio : PlistIO D) :
    ∃ g : Glif PD D, (∀ c ∈ g.outline.getD [], c ≠ [] ∧ ∀ p ∈ c, p.ptype = .qcurve) ∧
      (∃ g', gtrips mid pio 1 g = .ok g') ∧ gtrips mid pio 2 g = .panic := by
  obtain ⟨g, hg, g', h1, h2, _⟩ := C01_false (PD := PD) mid pio
  refine ⟨g, hg, ⟨g', ?_⟩, ?_⟩
  · unfold gtrips; rw [h1]; rfl
  · unfold gtrips; rw [h1, Out.bind_ok]
    unfold gtrips gtrip; rw [h2]; rfl

/-- **C02**, for glyphs whose contours are cubic.  After the first save, further saves do nothing but move the start of every contour that
starts with a curve point back by one (`stepBack`), however often. -/
theorem C02_partial (mid : IOF → IOF → IOF) (pio : PlistIO D) (g : Glif PD D) (h : Saveable pio g) :
    ∃ g1, gtrip mid pio g = .ok g1 ∧
      ∀ k, gtrips mid pio (k + 1) g = .ok { g1 with outline := g1.outline.map fun o => o.map stepBack^[k] } := by
  refine ⟨saved g, glif_trip mid pio g h, fun k => ?_⟩
  unfold gtrips gtrip
  rw [glif_trip mid pio g h, Out.bind_ok, gtrips_settled mid pio k _ (settled_saved h)]
  rfl

/-- Moving the start changes nothing if the contour does not start with a curve point. -/
theorem C02_step_fixed (c : Contour PD) (h : ∀ p, c.head? = some p → p.ptype ≠ .curve) (k : Nat) : stepBack^[k] c = c := by
  have : stepBack c = c := by
    cases c with
    | nil => rfl
    | cons p r => exact if_neg (h p rfl)
  exact Function.iterate_fixed this k

/-- However often the start moves, the points stay the same in the same cyclic order. -/
theorem C02_step_rotated (c : Contour PD) (k : Nat) : Rotated c (stepBack^[k] c) := by
  have key : ∀ k (c : Contour PD), ∃ j, stepBack^[k] c = startEarlier^[j] c := by
    intro k
    induction k with
    | zero => intro c; exact ⟨0, rfl⟩
    | succ k ih =>
      intro c
      rw [Function.iterate_succ_apply]
      cases c with
      | nil => obtain ⟨j, e⟩ := ih []; exact ⟨j, e⟩
      | cons p r =>
        unfold stepBack
        simp only []
        split
        · obtain ⟨j, e⟩ := ih (startEarlier (p :: r))
          exact ⟨j + 1, by rw [Function.iterate_succ_apply, ← e]; rfl⟩
        · exact ih _
  obtain ⟨j, e⟩ := key k c
  rw [e]
  by_cases hc : c = []
  · subst hc
    refine ⟨[], [], rfl, ?_⟩
    exact Function.iterate_fixed rfl j
  · rw [startEarlier_pow j c hc]
    unfold startedBack
    exact ⟨_, _, (List.take_append_drop _ c).symm, rfl⟩

theorem stepBack_until (m : Contour PD) : ∀ (l : Contour PD) (x : Point PD), (∀ p ∈ m, p.ptype = .curve) →
    (∀ p, (l ++ x :: m).head? = some p → p.ptype = .curve) → stepBack^[m.length + 1] (l ++ x :: m) = x :: (m ++ l) := by
  have step : ∀ c : Contour PD, (∀ p, c.head? = some p → p.ptype = .curve) → stepBack c = startEarlier c := by
    intro c hc
    cases c with
    | nil => rfl
    | cons p r => exact if_pos (hc p rfl)
  induction hn : m.length generalizing m with
  | zero =>
    intro l x _ hh
    rw [List.length_eq_zero_iff.1 hn] at hh ⊢
    show stepBack (l ++ [x]) = _
    rw [step _ hh, startEarlier_concat]; rfl
  | succ n ih =>
    intro l x hm hh
    rcases List.eq_nil_or_concat m with rfl | ⟨m', z, rfl⟩
    · simp at hn
    rw [List.concat_eq_append] at hm hh hn ⊢
    rw [Function.iterate_succ_apply, step _ hh]
    have e : l ++ x :: (m' ++ [z]) = (l ++ x :: m') ++ [z] := by simp
    rw [e, startEarlier_concat, show z :: (l ++ x :: m') = (z :: l) ++ x :: m' from rfl,
      ih m' (by simpa using hn) (z :: l) x (fun p hp => hm p (List.mem_append_left _ hp))
        (fun p hp => by cases hp; exact hm z (by simp))]
    simp

/-- The start of a contour that has a point other than a curve point settles, after at most as many steps
as the contour has points. -/
theorem C02_settles (c : Contour PD) (h : ∃ p ∈ c, p.ptype ≠ .curve) :
    ∃ j, j ≤ c.length ∧ ∀ k, j ≤ k → stepBack^[k] c = stepBack^[j] c := by
  have key : ∀ j, (∀ p, (stepBack^[j] c).head? = some p → p.ptype ≠ .curve) →
      ∀ k, j ≤ k → stepBack^[k] c = stepBack^[j] c := by
    intro j hj k hk
    obtain ⟨i, rfl⟩ := Nat.exists_eq_add_of_le hk
    rw [Nat.add_comm, Function.iterate_add_apply, C02_step_fixed _ hj]
  by_cases h0 : ∀ p, c.head? = some p → p.ptype ≠ .curve
  · exact ⟨0, Nat.zero_le _, key 0 h0⟩
  · have hsplit : ∀ c : Contour PD, (∃ p ∈ c, p.ptype ≠ .curve) →
        ∃ l x m, c = l ++ x :: m ∧ x.ptype ≠ .curve ∧ ∀ p ∈ m, p.ptype = .curve := by
      intro c
      induction c with
      | nil => rintro ⟨_, h, _⟩; cases h
      | cons a c ih =>
        intro hh
        by_cases hc : ∃ p ∈ c, p.ptype ≠ .curve
        · obtain ⟨l, x, m, rfl, h1, h2⟩ := ih hc
          exact ⟨a :: l, x, m, rfl, h1, h2⟩
        · refine ⟨[], a, c, rfl, ?_, fun p hp => by by_contra hne; exact hc ⟨p, hp, hne⟩⟩
          obtain ⟨p, hp, hne⟩ := hh
          rcases List.mem_cons.1 hp with rfl | hp
          · exact hne
          · exact absurd ⟨p, hp, hne⟩ hc
    obtain ⟨l, x, m, rfl, hx, hm⟩ := hsplit c h
    have e := stepBack_until m l x hm (by
      intro p hp
      by_contra hne
      exact h0 fun q hq => by rw [hp] at hq; cases hq; exact hne)
    refine ⟨m.length + 1, by simp, key _ ?_⟩
    rw [e]
    intro p hp
    cases hp; exact hx

/-- A curve start in front of two line points settles after one further save. -/
example : ∃ p ∈ [Sample.cv 0 0 1 1 2 2, Sample.pt .line 3 3, Sample.pt .line 1 1], p.ptype ≠ .curve :=
  ⟨Sample.pt .line 3 3, by simp, by decide⟩

/-- In a contour of curve points only the start moves round and round. -/
theorem C02_all_curve (c : Contour PD) (hc : AllCurve c) (hne : c ≠ []) (k : Nat) :
    stepBack^[k] c = startedBack (k % c.length) c := by
  rw [← startEarlier_pow k c hne]
  clear hne
  induction k generalizing c with
  | zero => rfl
  | succ k ih =>
    rw [Function.iterate_succ_apply, Function.iterate_succ_apply]
    have : stepBack c = startEarlier c := by
      cases c with
      | nil => rfl
      | cons p r => exact if_pos (hc p List.mem_cons_self)
    rw [this, ih _ (allCurve_startEarlier hc)]

/-- So a glyph none of whose contours starts with a curve point after the first save is the same after
every further save. -/
theorem C02_fixed (mid : IOF → IOF → IOF) (pio : PlistIO D) (g g1 : Glif PD D) (h : Saveable pio g)
    (h1 : gtrip mid pio g = .ok g1)
    (hc : ∀ c ∈ g1.outline.getD [], ∀ p, c.head? = some p → p.ptype ≠ .curve) (k : Nat) :
    gtrips mid pio (k + 1) g = .ok g1 := by
  obtain ⟨g', h', hk⟩ := C02_partial mid pio g h
  rw [h1, Out.ok.injEq] at h'
  subst h'
  rw [hk k]
  obtain ⟨outline, anchors, components, guidelines, images, width, unicode, name, note, filename, lib⟩ := g1
  simp only at hc ⊢
  cases ho : outline with
  | none => rfl
  | some o =>
    rw [ho] at hc
    have : o.map stepBack^[k] = o := by
      conv_rhs => rw [← List.map_id o]
      exact List.map_congr_left fun c hc' => C02_step_fixed c (hc c hc') k
    simp only [Option.map_some, this]

/-- A glyph of the kind `C01_partial` and `C02_partial` are about: two contours, an anchor, a component,
an image, a guideline, a note. -/
example (pio : PlistIO D) : Saveable pio
    ({ name := "a".toList, width := some 500, unicode := ['a'], note := some "x".toList,
       outline := some [[Sample.cv 0 0 1 1 2 2, Sample.pt .line 3 3, Sample.pt .curve 1 1], [Sample.pt .move 0 0, Sample.pt .line 1 1]],
       anchors := [{ x := Sample.f 1, y := Sample.f 2, cls := some "_top".toList, atype := .mark }],
       components := { vec := [GlifComponent.new] }, images := [GlifImage.fromFilename "a.png".toList],
       guidelines := [{ x := Sample.f 1, y := Sample.f 2, angle := .int 90, name := some "base".toList, color := none, identifier := none }] } : Glif Unit D) := by
  refine ⟨?_, ?_, ?_, trivial⟩
  · intro o ho c hc
    cases ho
    simp only [List.mem_cons, List.not_mem_nil, or_false] at hc
    rcases hc with rfl | rfl
    · exact ⟨by simp, by simp [Cubic, Sample.cv, Sample.pt]⟩
    · exact ⟨by simp, by simp [Cubic, Sample.pt]⟩
  · intro w hw; cases hw; decide
  · intro a ha s hs
    rw [List.mem_singleton] at ha
    subst ha
    cases hs
    exact ⟨by decide, by decide⟩

end GP
