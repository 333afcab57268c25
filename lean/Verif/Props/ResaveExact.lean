import Verif.Props.Format
import Verif.Props.Resave
import Verif.Props.Pedantry
import Verif.Props.Read
/-!
# Which glyphs come back when they are saved and read (C01), and which can be saved again (C02)
-/
open Fl
namespace GP
open Spec
variable {PD D : Type}

/-- What a glyph is without what its contours, its lib and the classes of its anchors say. -/
def bare (g : Glif PD D) : Glif PD D :=
  { g with outline := none, lib := .none, anchors := g.anchors.map fun a => { a with cls := none } }

theorem bare_acceptable (pio : PlistIO D) (g : Glif PD D) (hw : ∀ w, g.width = some w → w < 2 ^ 64) :
    ∃ kids, kids = writtenKids pio (bare g) { name := "outline" } ∧
      Acceptable {} { (({ name := "glyph" } : Element).set "name" g.name).set "format" "2".toList with children := kids } := by
  have hs : Saveable pio (bare g) := by
    refine ⟨?_, hw, ?_, ?_⟩
    · intro o ho; cases ho
    · intro a ha s hs
      obtain ⟨b, -, rfl⟩ := List.mem_map.1 ha
      cases hs
    · trivial
  obtain ⟨g', h, -⟩ := C01_partial (fun a _ => a) pio (bare g) hs
  obtain ⟨root, h1, h2⟩ := bind_eq_ok.1 h
  refine ⟨_, rfl, ?_⟩
  have := ((read_iff _ pio {} root).1 ⟨_, h2⟩).1
  rw [glifXml_eq] at h1
  obtain ⟨oe, h3, h4⟩ := bind_eq_ok.1 h1
  cases h3
  cases h4
  exact this

theorem written_contour {c : Contour PD} {e : Element} (h : contourXml c = .ok e) :
    ∃ r, intoGlifpoints c = .ok r ∧ named "point" e.children = r.map pointXml := by
  unfold contourXml at h
  obtain ⟨gc, h1, h2⟩ := bind_eq_ok.1 h
  cases h2
  refine ⟨gc, h1, ?_⟩
  unfold glifContourXml
  rw [named_nodes "point" "point" pointXml (fun a => by simp), if_pos rfl]

/-- The reader finds no mistake in what was written, whatever the glyph. -/
theorem written_acceptable (pio : PlistIO D) (g : Glif PD D) (hw : ∀ w, g.width = some w → w < 2 ^ 64) {root : Element}
    (hr : glifXml pio g = .ok root) : Acceptable {} root ∧
      List.Forall₂ (fun c e => contourXml c = .ok e) (g.outline.getD []) (contoursOf root) := by
  rw [glifXml_eq] at hr
  obtain ⟨oe, h1, h2⟩ := bind_eq_ok.1 hr
  cases h2
  obtain ⟨els, rfl, he⟩ := outlineElem_parts h1
  have hcon : ∀ e ∈ els, ∃ c ∈ g.outline.getD [], contourXml c = .ok e := fun e hm => forall₂_mem_right he hm
  have hn : ∀ e ∈ els, e.name = "contour" := fun e hm => by
    obtain ⟨c, -, hc⟩ := hcon e hm
    exact (contourXml_name hc).1
  have hk := written_named pio g { name := "outline", children := els.map Element.node }
  generalize writtenKids pio g { name := "outline", children := els.map Element.node } = kids at hk ⊢
  have k1 := hk "advance"
  have k2 := hk "unicode"
  have k3 := hk "anchor"
  have k4 := hk "outline"
  have k5 := hk "image"
  have k6 := hk "guideline"
  simp only [String.reduceEq, if_true, if_false, List.nil_append, List.append_nil, ite_self] at k1 k2 k3 k4 k5 k6
  obtain ⟨kids0, hkids0, A⟩ := bare_acceptable pio g hw
  have hj := written_named pio (bare g) { name := "outline" }
  rw [← hkids0] at hj
  have j1 := hj "advance"
  have j2 := hj "unicode"
  have j3 := hj "anchor"
  have j4 := hj "outline"
  have j5 := hj "image"
  have j6 := hj "guideline"
  simp only [String.reduceEq, if_true, if_false, List.nil_append, List.append_nil, ite_self] at j1 j2 j3 j4 j5 j6
  have hoc : named "contour" (els.map Element.node ++ g.components.vec.map fun c => (componentXml c).node) = els := by
    rw [named_append, named_nodes "contour" "component" componentXml (fun a => by simp), named_contours hn]
    simp
  have hop : named "component" (els.map Element.node ++ g.components.vec.map fun c => (componentXml c).node) =
      g.components.vec.map componentXml := by
    rw [named_append, named_nodes "component" "component" componentXml (fun a => by simp), named_contours hn]
    simp
  have hcs : contoursOf { (({ name := "glyph" } : Element).set "name" g.name).set "format" "2".toList with children := kids } =
      els := by
    unfold contoursOf
    simp only []
    rw [k4]
    by_cases h0 : 1 ≤ (els.map Element.node ++ g.components.vec.map fun c => (componentXml c).node).length
    · rw [if_pos h0]; exact hoc
    · rw [if_neg h0]
      simp only [List.length_append, List.length_map] at h0
      exact (List.length_eq_zero_iff.1 (by omega)).symm
  refine ⟨⟨A.tag, A.format, A.name, ?_, ?_, ?_, ?_, ?_, ?_⟩, ?_⟩
  · have := A.advance
    simp only [] at this ⊢
    rw [k1]; rw [j1] at this; exact this
  · have := A.unicode
    simp only [] at this ⊢
    rw [k2]; rw [j2] at this; exact this
  · have := A.anchor
    simp only [] at this ⊢
    rw [k3]; rw [j3] at this
    intro e hm
    obtain ⟨a, ha, rfl⟩ := List.mem_map.1 hm
    obtain ⟨hx, hy, -⟩ := this (anchorXml { a with cls := none })
      (List.mem_map_of_mem (List.mem_map_of_mem (f := fun a : Anchor => { a with cls := none }) ha))
    have ex : (anchorXml a).get "x" = (anchorXml { a with cls := none }).get "x" := by simp [anchorXml]
    have ey : (anchorXml a).get "y" = (anchorXml { a with cls := none }).get "y" := by simp [anchorXml]
    exact ⟨by unfold HasNumber; rw [ex]; exact hx, by unfold HasNumber; rw [ey]; exact hy, Or.inl trivial⟩
  · have := A.image
    simp only [] at this ⊢
    rw [k5]; rw [j5] at this; exact this
  · have := A.guideline
    simp only [] at this ⊢
    rw [k6]; rw [j6] at this; exact this
  · intro o ho
    simp only [] at ho
    rw [k4] at ho
    split at ho
    next h0 =>
      cases ho
      simp only []
      rw [hoc, hop]
      constructor
      · intro e hm p hp
        obtain ⟨c, -, hc⟩ := hcon e hm
        obtain ⟨r, -, er⟩ := written_contour hc
        rw [er] at hp
        obtain ⟨x, -, rfl⟩ := List.mem_map.1 hp
        obtain ⟨h1, h2, _⟩ := pointXml_get x
        exact ⟨⟨_, h1, (C79_accepted _).1 ⟨_, IOF.parse_show_eq _⟩⟩, ⟨_, h2, (C79_accepted _).1 ⟨_, IOF.parse_show_eq _⟩⟩⟩
      · intro e hm
        have hm' := hm
        obtain ⟨c, hc, -⟩ := List.mem_map.1 hm
        have := A.outline
        simp only [] at this
        rw [j4] at this
        rw [if_pos (by
          simp only [List.length_map]
          exact List.length_pos_of_mem hc)] at this
        refine (this _ rfl).2 e ?_
        simp only []
        rw [named_nodes "component" "component" componentXml (fun a => by simp), if_pos rfl]
        exact hm
    next => cases ho
  · rw [hcs]; exact he

theorem glifXml_total {pio : PlistIO D} {g : Glif PD D} (h : glifXml pio g ≠ .panic) : ∃ root, glifXml pio g = .ok root := by
  cases e : glifXml pio g with
  | ok r => exact ⟨r, rfl⟩
  | panic => exact absurd e h
  | err x => exact absurd e (C06_no_err pio g x)

/-! ## What is written for a contour -/

/-- How the points written for a contour begin and end. -/
theorem blocks_ends (l : List (Point PD × Point PD)) (hl : ∀ x ∈ l, ¬ unwritable x.2.ptype) :
    (l.flatMap fun x => written x.1 x.2) = [] ∨
    (∃ a r, (l.flatMap fun x => written x.1 x.2) = a :: r ∧ (a.ptype = .offcurve ∨ a.ptype = .move ∨ a.ptype = .line)) ∧
    ∃ s b, (l.flatMap fun x => written x.1 x.2) = s ++ [b] ∧
      (b.ptype = .move ∨ b.ptype = .line ∨ b.ptype = .curve ∨
        (b.ptype = .qcurve ∧ ∃ z, s.getLast? = some z ∧ z.ptype = .offcurve)) := by
  have one : ∀ x : Point PD × Point PD, ¬ unwritable x.2.ptype → written x.1 x.2 = [] ∨
      (∃ a r, written x.1 x.2 = a :: r ∧ (a.ptype = .offcurve ∨ a.ptype = .move ∨ a.ptype = .line)) ∧
      ∃ s b, written x.1 x.2 = s ++ [b] ∧
        (b.ptype = .move ∨ b.ptype = .line ∨ b.ptype = .curve ∨
          (b.ptype = .qcurve ∧ ∃ z, s.getLast? = some z ∧ z.ptype = .offcurve)) := by
    rintro ⟨q, p⟩ hx
    simp only at hx
    cases ht : p.ptype with
    | undefined => exact absurd (Or.inl ht) hx
    | qclose => exact absurd (Or.inr ht) hx
    | offcurve => left; simp [written, ht]
    | move =>
      right
      refine ⟨⟨on p, [], by simp [written, offsBefore, ht], Or.inr (Or.inl ht)⟩, [], on p, by simp [written, offsBefore, ht], Or.inl ht⟩
    | line =>
      right
      refine ⟨⟨on p, [], by simp [written, offsBefore, ht], Or.inr (Or.inr ht)⟩, [], on p, by simp [written, offsBefore, ht], Or.inr (Or.inl ht)⟩
    | curve =>
      right
      refine ⟨⟨off (outPos q), [off (inPos p), on p], by simp [written, offsBefore, ht], Or.inl rfl⟩, [off (outPos q), off (inPos p)], on p,
        by simp [written, offsBefore, ht], Or.inr (Or.inr (Or.inl ht))⟩
    | qcurve =>
      right
      refine ⟨⟨off (inPos p), [on p], by simp [written, offsBefore, ht], Or.inl rfl⟩, [off (inPos p)], on p,
        by simp [written, offsBefore, ht], Or.inr (Or.inr (Or.inr ⟨ht, _, rfl, rfl⟩))⟩
  induction l with
  | nil => exact Or.inl rfl
  | cons x l ih =>
    rw [List.flatMap_cons]
    have ih := ih fun y hy => hl y (List.mem_cons_of_mem _ hy)
    rcases one x (hl x List.mem_cons_self) with e | ⟨⟨a, r, e, ha⟩, s, b, e', hb⟩
    · rw [e]; exact ih
    · right
      refine ⟨⟨a, r ++ _, by rw [e]; rfl, ha⟩, ?_⟩
      rcases ih with e2 | ⟨-, s2, b2, e2, hb2⟩
      · rw [e2, List.append_nil]; exact ⟨s, b, e', hb⟩
      · rw [e2, ← List.append_assoc]
        refine ⟨_, b2, rfl, ?_⟩
        rcases hb2 with h | h | h | ⟨h, z, hz, hz'⟩
        · exact Or.inl h
        · exact Or.inr (Or.inl h)
        · exact Or.inr (Or.inr (Or.inl h))
        · refine Or.inr (Or.inr (Or.inr ⟨h, z, ?_, hz'⟩))
          rw [List.getLast?_append, hz]; rfl

theorem written_kind (x : GlifPoint) (t : PointType) (s : String) (hs : t.text = s.toList) (h0 : t.text ≠ "offcurve".toList)
    (h : x.ptype = t) : OfType (pointXml x) s := by
  obtain ⟨_, _, _, h3, _⟩ := pointXml_get x
  unfold OfType
  rw [h3, h, if_neg h0, hs]

theorem written_off (x : GlifPoint) (h : x.ptype = .offcurve) : IsOff (pointXml x) := by
  obtain ⟨_, _, _, h3, _⟩ := pointXml_get x
  intro t ht
  rw [h3, h, if_pos (by decide)] at ht
  cases ht

theorem written_quadratic (x : GlifPoint) (h : OfType (pointXml x) "qcurve") (hx : Writable x.ptype) : x.ptype = .qcurve := by
  obtain ⟨_, _, _, h3, _⟩ := pointXml_get x
  unfold OfType at h
  rw [h3] at h
  rcases hx with e | e | e | e | e <;> rw [e] at h ⊢ <;> exact absurd h (by decide)

/-- A contour with a quadratic point is written in a way that cannot be read, or cannot be written again. -/
theorem quadratic_once {c : Contour PD} {e : Element} (h : contourXml c = .ok e) (hq : ∃ p ∈ c, p.ptype = .qcurve) :
    QuadraticInCubic e ∨ QuadraticEndingOff e := by
  obtain ⟨r, h1, h2⟩ := written_contour h
  have hu : ∀ p ∈ c, ¬ unwritable p.ptype := by
    intro p hp hup
    rw [intoGlifpoints_unwritable ⟨p, hp, hup⟩] at h1
    cases h1
  obtain ⟨p, hp, hpq⟩ := hq
  have hmem : on p ∈ fileCycle c := by
    rw [← mem_cyclicPairs_snd c] at hp
    obtain ⟨⟨q, p'⟩, hm, rfl⟩ := List.mem_map.1 hp
    refine List.mem_flatMap.2 ⟨(q, p'), hm, ?_⟩
    simp only at hpq
    simp [written, hpq]
  have hon : (on p).ptype = .qcurve := hpq
  have hl : ∀ x ∈ cyclicPairs c, ¬ unwritable x.2.ptype := fun x hx => hu _ (by
    rw [← mem_cyclicPairs_snd c]; exact List.mem_map_of_mem hx)
  rcases blocks_ends (cyclicPairs c) hl with e0 | ⟨⟨a, r', ea, ha⟩, s, b, eb, hb⟩
  · have : fileCycle c = [] := e0
    rw [this] at hmem; cases hmem
  · have ea' : fileCycle c = a :: r' := ea
    have eb' : fileCycle c = s ++ [b] := eb
    rw [intoGlifpoints_cycle hu ea'] at h1
    by_cases hao : a.ptype = .offcurve
    · rw [if_pos hao, ← ea', eb'] at h1
      have hr : r = b :: s := by
        have : startEarlier (s ++ [b]) = b :: s := by simp [startEarlier]
        rw [this] at h1; cases h1; rfl
      subst hr
      rw [List.map_cons] at h2
      rw [eb'] at hmem
      have hin : b.ptype ≠ .qcurve → on p ∈ s := by
        intro hb'
        rcases List.mem_append.1 hmem with h | h
        · exact h
        · rw [List.mem_singleton] at h
          rw [h] at hon; exact absurd hon hb'
      rcases hb with hb | hb | hb | ⟨hb, z, hz, hz'⟩
      · refine Or.inl ⟨_, _, h2, Or.inl (written_kind b .move _ (by decide) (by decide) hb), _, List.mem_map_of_mem (hin (by rw [hb]; simp)),
          written_kind _ .qcurve _ (by decide) (by decide) hon⟩
      · refine Or.inl ⟨_, _, h2, Or.inr (Or.inl (written_kind b .line _ (by decide) (by decide) hb)), _, List.mem_map_of_mem (hin (by rw [hb]; simp)),
          written_kind _ .qcurve _ (by decide) (by decide) hon⟩
      · refine Or.inl ⟨_, _, h2, Or.inr (Or.inr (written_kind b .curve _ (by decide) (by decide) hb)), _, List.mem_map_of_mem (hin (by rw [hb]; simp)),
          written_kind _ .qcurve _ (by decide) (by decide) hon⟩
      · refine Or.inr ⟨_, _, pointXml z, h2, written_kind b .qcurve _ (by decide) (by decide) hb, ?_, written_off z hz'⟩
        rw [List.getLast?_map, hz]; rfl
    · rw [if_neg hao] at h1
      have hr : r = a :: r' := by cases h1; rfl
      subst hr
      rw [List.map_cons] at h2
      have hne : on p ≠ a := by
        intro h; rw [h] at hon
        rcases ha with ha | ha | ha <;> rw [ha] at hon <;> cases hon
      rw [ea'] at hmem
      have hin := (List.mem_cons.1 hmem).resolve_left hne
      rcases ha with ha | ha | ha
      · exact absurd ha hao
      · exact Or.inl ⟨_, _, h2, Or.inl (written_kind a .move _ (by decide) (by decide) ha), _, List.mem_map_of_mem hin,
          written_kind _ .qcurve _ (by decide) (by decide) hon⟩
      · exact Or.inl ⟨_, _, h2, Or.inr (Or.inl (written_kind a .line _ (by decide) (by decide) ha)), _, List.mem_map_of_mem hin,
          written_kind _ .qcurve _ (by decide) (by decide) hon⟩

/-- A contour without a quadratic point is written without one. -/
theorem no_quadratic {c : Contour PD} {e : Element} (h : contourXml c = .ok e) (hq : ∀ p ∈ c, p.ptype ≠ .qcurve) :
    ∀ x ∈ named "point" e.children, ¬ OfType x "qcurve" := by
  obtain ⟨r, h1, h2⟩ := written_contour h
  rw [h2]
  intro x hx hxq
  obtain ⟨y, hy, rfl⟩ := List.mem_map.1 hx
  by_cases hyo : y.ptype = .offcurve
  · have := written_quadratic y hxq (by simp [Writable, hyo])
    rw [hyo] at this; cases this
  · have hy' : y ∈ r.filter fun g => g.ptype ≠ .offcurve := List.mem_filter.2 ⟨hy, by simpa using hyo⟩
    have hm := rotated_mem (C56_partial c r h1) hy'
    obtain ⟨p, hp, rfl⟩ := List.mem_map.1 hm
    have hp := (List.mem_filter.1 hp).1
    have hu : ¬ unwritable p.ptype := by
      intro hup
      rw [intoGlifpoints_unwritable ⟨p, hp, hup⟩] at h1
      cases h1
    refine hq p hp (written_quadratic (on p) hxq ?_)
    show Writable p.ptype
    unfold Writable
    unfold unwritable at hu
    cases ht : p.ptype <;> simp_all

/-- **C02.** Which glyphs can be saved, read back and saved again: those each of whose contours has an on-curve point and
otherwise points of lines, cubic curves and off-curve points only.  (A width is a `u64`.) -/
theorem C02_exact (mid : IOF → IOF → IOF) (pio : PlistIO D) (g : Glif PD D) (hw : ∀ w, g.width = some w → w < 2 ^ 64) :
    (∃ g1 root1, gtrip mid pio g = .ok g1 ∧ glifXml pio g1 = .ok root1) ↔ ∀ c ∈ g.outline.getD [], SavedAgain c := by
  constructor
  · rintro ⟨g1, root1, h1, h2⟩ c hc
    obtain ⟨root, h3, h4⟩ := bind_eq_ok.1 h1
    obtain ⟨-, hf⟩ := written_acceptable pio g hw h3
    obtain ⟨e, he, hce⟩ := forall₂_mem_left hf hc
    have hnp : ¬ intoGlifpoints c = .panic := by
      intro hp
      unfold contourXml at hce
      rw [hp] at hce
      cases hce
    rw [C05_panics_iff] at hnp
    push Not at hnp
    obtain ⟨⟨p, hp, hpo⟩, hall⟩ := hnp
    refine ⟨⟨p, hp, hpo⟩, ?_⟩
    have hnq : ¬ ∃ p ∈ c, p.ptype = .qcurve := by
      intro hq
      rcases quadratic_once hce hq with h | h
      · exact ((read_iff mid pio {} root).1 ⟨g1, h4⟩).2 ⟨e, he, h⟩
      · have := (C06_panics_iff mid pio pio {} root g1 h4).2 ⟨e, he, h⟩
        rw [h2] at this; cases this
    intro q hq
    have h5 := hall q hq
    have h6 : q.ptype ≠ .qcurve := fun h => hnq ⟨q, hq, h⟩
    cases ht : q.ptype <;> simp_all
  · intro h
    have hnp : glifXml pio g ≠ .panic := by
      intro hp
      obtain ⟨c, hc, hp⟩ := (glifXml_panic pio g).1 hp
      obtain ⟨⟨p, hpm, hpo⟩, hall⟩ := h c hc
      rcases (C05_panics_iff c).1 hp with h' | ⟨q, hq, h'⟩
      · exact hpo (h' p hpm)
      · have := hall q hq
        rcases h' with h' | h' <;> rw [h'] at this <;> simp at this
    obtain ⟨root, hr⟩ := glifXml_total hnp
    obtain ⟨ha, hf⟩ := written_acceptable pio g hw hr
    have hnq : ∀ e ∈ contoursOf root, ∀ x ∈ named "point" e.children, ¬ OfType x "qcurve" := by
      intro e he
      obtain ⟨c, hc, hce⟩ := forall₂_mem_right hf he
      refine no_quadratic hce fun p hp hq => ?_
      have := (h c hc).2 p hp
      rw [hq] at this; simp at this
    obtain ⟨g1, h1⟩ := (read_iff (PD := PD) mid pio {} root).2 ⟨ha, by
      rintro ⟨e, he, x, ps, hx, -, q, hq, hqt⟩
      exact hnq e he q (by rw [hx]; exact List.mem_cons_of_mem _ hq) hqt⟩
    have hnp1 : glifXml pio g1 ≠ .panic := by
      intro hp
      obtain ⟨e, he, x, ps, q, hx, hxt, -⟩ := (C06_panics_iff mid pio pio {} root g1 h1).1 hp
      exact hnq e he x (by rw [hx]; exact List.mem_cons_self) hxt
    obtain ⟨root1, hr1⟩ := glifXml_total hnp1
    refine ⟨g1, root1, ?_, hr1⟩
    unfold gtrip
    rw [hr, Out.bind_ok, h1]

/-! ## However often -/

theorem read_width {mid : IOF → IOF → IOF} {pio : PlistIO D} {ped : Pedantry} {root : Element} {g : Glif PD D}
    (h : readGlif mid pio ped root = .ok g) : ∀ w, g.width = some w → w < 2 ^ 64 := by
  intro w hw
  have hs := (C85_says mid pio ped root g h).width
  rw [hw] at hs
  cases hs' : (named "advance" root.children).head? with
  | none => rw [hs'] at hs; cases hs
  | some e =>
    rw [hs'] at hs
    have ha : readAdvance ped e = .ok w := (readAdvance_iff ped e w).2 (by cases hs; assumption)
    unfold readAdvance at ha
    obtain ⟨t, -, ht⟩ := bind_eq_ok.1 ha
    rcases (C12_accepts ped t w).1 ht with h | ⟨-, -, f, -, -, hf⟩
    · exact h.2
    · unfold TruncatesTo at hf
      split at hf
      · omega
      · omega
      · split at hf
        · omega
        · rcases hf with hf | hf <;> omega

/-- What is read of contours without a quadratic point is made of lines and cubic curves. -/
theorem read_cubic {mid : IOF → IOF → IOF} {pio : PlistIO D} {ped : Pedantry} {root : Element} {g : Glif PD D}
    (h : readGlif mid pio ped root = .ok g)
    (hq : ∀ e ∈ contoursOf root, ∀ x ∈ named "point" e.children, ¬ OfType x "qcurve") :
    ∀ c ∈ g.outline.getD [], c ≠ [] ∧ Cubic c := by
  intro c hc
  obtain ⟨e, he, hne, gc, hr, hg⟩ := forall₂_mem_right (C08_file mid pio ped root g h) hc
  refine ⟨hne, ?_⟩
  have he := (List.mem_filter.1 he).1
  cases gc with
  | nil => cases hg
  | cons y gc =>
    have hy : y.ptype ≠ .qcurve := by
      intro hyq
      obtain ⟨x, hx, hxr⟩ := forall₂_mem_right (contour_read hr) (List.mem_cons_self (a := y) (l := gc))
      exact hq e he x hx ((readPoint_type hxr).2.2.2.1.1 hyq)
    have hw := (contour_read_file hr (by simp)).2 y List.mem_cons_self
    have hcub : cubicContour (PD := PD) (y :: gc) = .ok c := by
      unfold contourOfGlif at hg
      rcases hw with e | e | e | e | e <;> simp only [e] at hg
      · exact hg
      · exact hg
      · exact hg
      · exact absurd e hy
      · cases hg; exact absurd rfl hne
    rcases cubicContour_types (PD := PD) (y :: gc) with ⟨_, e⟩ | ⟨_, c', e, ht⟩
    · rw [e] at hcub; cases hcub
    · rw [e] at hcub; cases hcub
      intro p hp
      have : p.ptype ∈ c.map (·.ptype) := List.mem_map_of_mem hp
      rw [ht] at this
      split at this
      · cases this
      · have hd := (List.mem_filter.1 this).2
        simpa [isDrawn, or_assoc] using hd

/-- **C02.** So a glyph can be saved and read back twice if and only if it can be any number of times. -/
theorem C02_ever (mid : IOF → IOF → IOF) (pio : PlistIO D) (g : Glif PD D) (hw : ∀ w, g.width = some w → w < 2 ^ 64) :
    ((∀ k, ∃ g', gtrips mid pio k g = .ok g') ↔ ∀ c ∈ g.outline.getD [], SavedAgain c) ∧
    ((∃ g', gtrips mid pio 2 g = .ok g') ↔ ∀ c ∈ g.outline.getD [], SavedAgain c) := by
  have h1 : (∃ g', gtrips mid pio 2 g = .ok g') → ∀ c ∈ g.outline.getD [], SavedAgain c := by
    rintro ⟨g', h⟩
    obtain ⟨g1, e1, h⟩ := bind_eq_ok.1 h
    obtain ⟨g2, e2, -⟩ := bind_eq_ok.1 h
    obtain ⟨root1, e3, -⟩ := bind_eq_ok.1 e2
    exact (C02_exact mid pio g hw).1 ⟨g1, root1, e1, e3⟩
  have h2 : ∀ k, ∀ g : Glif PD D, (∀ w, g.width = some w → w < 2 ^ 64) → (∀ c ∈ g.outline.getD [], SavedAgain c) →
      ∃ g', gtrips mid pio k g = .ok g' := by
    intro k
    induction k with
    | zero => intro g _ _; exact ⟨g, rfl⟩
    | succ k ih =>
      intro g hw hc
      obtain ⟨g1, root1, e1, -⟩ := (C02_exact mid pio g hw).2 hc
      have e1' := e1
      obtain ⟨root, e2, e3⟩ := bind_eq_ok.1 e1'
      obtain ⟨-, hf⟩ := written_acceptable pio g hw e2
      have hq : ∀ e ∈ contoursOf root, ∀ x ∈ named "point" e.children, ¬ OfType x "qcurve" := by
        intro e he
        obtain ⟨c, hcm, hce⟩ := forall₂_mem_right hf he
        refine no_quadratic hce fun p hp hq => ?_
        have := (hc c hcm).2 p hp
        rw [hq] at this; simp at this
      obtain ⟨g', e⟩ := ih g1 (read_width e3) (fun c hcm => by
        obtain ⟨hne, hcub⟩ := read_cubic e3 hq c hcm
        constructor
        · cases c with
          | nil => exact absurd rfl hne
          | cons p c =>
            refine ⟨p, List.mem_cons_self, fun hp => ?_⟩
            have := hcub p List.mem_cons_self
            rw [hp] at this; simp at this
        · intro p hp
          rcases hcub p hp with h | h | h
          · exact Or.inl h
          · exact Or.inr (Or.inl h)
          · exact Or.inr (Or.inr (Or.inl h)))
      refine ⟨g', ?_⟩
      show (gtrip mid pio g >>= gtrips mid pio k) = _
      rw [e1, Out.bind_ok, e]
  exact ⟨⟨fun h => h1 (h 2), fun h k => h2 k g hw h⟩, h1, h2 2 g hw⟩

/-- A glyph with a curve and an off-curve point among its points can; one with a quadratic point beside a line cannot. -/
example : SavedAgain ([{ x := Sample.f 0, y := Sample.f 0, ptype := .offcurve }, { x := Sample.f 5, y := Sample.f 0, ptype := .curve }] :
      Contour Unit) ∧
    ¬ SavedAgain ([{ x := Sample.f 0, y := Sample.f 0, ptype := .line }, { x := Sample.f 5, y := Sample.f 0, ptype := .qcurve }] :
      Contour Unit) := by
  simp [SavedAgain]

/-! ## C01, exactly -/

/-- The types of the points that are stored are those of the contour. -/
theorem stored_type (c : Contour PD) (t : PointType) :
    (∃ p ∈ (stored c).map unsigned, p.ptype = t) ↔ ∃ p ∈ c, p.ptype = t := by
  have hk : (∃ p ∈ keptContour c, p.ptype = t) ↔ ∃ p ∈ c, p.ptype = t := by
    have := keptContour_map (fun p : Point PD => p.ptype) (fun a b => rfl) c
    constructor
    · rintro ⟨p, hp, e⟩
      have hm := List.mem_map_of_mem (f := fun p : Point PD => p.ptype) hp
      rw [this] at hm
      obtain ⟨q, hq, e'⟩ := List.mem_map.1 hm
      exact ⟨q, hq, e'.trans e⟩
    · rintro ⟨p, hp, e⟩
      have hm := List.mem_map_of_mem (f := fun p : Point PD => p.ptype) hp
      rw [← this] at hm
      obtain ⟨q, hq, e'⟩ := List.mem_map.1 hm
      exact ⟨q, hq, e'.trans e⟩
  have hs : ∀ p, p ∈ stored c ↔ p ∈ keptContour c := by
    intro p
    unfold stored
    split
    · split
      · exact mem_startEarlier
      · exact Iff.rfl
    · rfl
  rw [← hk]
  constructor
  · rintro ⟨p, hp, e⟩
    obtain ⟨q, hq, rfl⟩ := List.mem_map.1 hp
    exact ⟨q, (hs q).1 hq, e⟩
  · rintro ⟨p, hp, e⟩
    exact ⟨unsigned p, List.mem_map_of_mem ((hs p).2 hp), e⟩

/-- **C01**, exactly: a glyph comes back as it was (up to `Resaved`) if and only if its contours have points, all of lines
and cubic curves, its anchors' classes are not empty and free of control characters, and its lib survives the plist
library.  (A width is a `u64`.) -/
theorem C01_exact (mid : IOF → IOF → IOF) (pio : PlistIO D) (g : Glif PD D) (hw : ∀ w, g.width = some w → w < 2 ^ 64) :
    (∃ g', gtrip mid pio g = .ok g' ∧ Resaved g g') ↔ Saveable pio g := by
  refine ⟨?_, fun h => C01_partial mid pio g h⟩
  rintro ⟨g1, h1, hs⟩
  obtain ⟨root, h2, h3⟩ := bind_eq_ok.1 h1
  obtain ⟨-, hf⟩ := written_acceptable pio g hw h2
  have hwr : ∀ c ∈ g.outline.getD [], ¬ intoGlifpoints c = .panic := by
    intro c hc hp
    obtain ⟨e, he, hce⟩ := forall₂_mem_left hf hc
    unfold contourXml at hce
    rw [hp] at hce
    cases hce
  have hagain : glifXml pio g1 ≠ .panic := by
    intro hp
    obtain ⟨c, hc, hp⟩ := (glifXml_panic pio g1).1 hp
    rw [hs.outline] at hc
    obtain ⟨c0, hc0, rfl⟩ := List.mem_map.1 hc
    refine hwr c0 (List.mem_filter.1 hc0).1 ((C05_panics_iff c0).2 ?_)
    rcases (C05_panics_iff _).1 hp with h | ⟨p, hpm, h⟩
    · left
      intro p hpm
      obtain ⟨q, hq, e⟩ := (stored_type c0 p.ptype).2 ⟨p, hpm, rfl⟩
      rw [← e]; exact h q hq
    · right
      obtain ⟨q, hq, e⟩ := (stored_type c0 p.ptype).1 ⟨p, hpm, rfl⟩
      exact ⟨q, hq, by rw [e]; exact h⟩
  obtain ⟨root1, hr1⟩ := glifXml_total hagain
  have hsa := (C02_exact mid pio g hw).1 ⟨g1, root1, h1, hr1⟩
  have hq : ∀ e ∈ contoursOf root, ∀ x ∈ named "point" e.children, ¬ OfType x "qcurve" := by
    intro e he
    obtain ⟨c, hcm, hce⟩ := forall₂_mem_right hf he
    refine no_quadratic hce fun p hp hq => ?_
    have := (hsa c hcm).2 p hp
    rw [hq] at this; simp at this
  have hcub := read_cubic h3 hq
  refine ⟨?_, hw, ?_, ?_⟩
  · intro o ho c hc
    have hc' : c ∈ g.outline.getD [] := by rw [ho]; exact hc
    obtain ⟨⟨p, hp, -⟩, -⟩ := hsa c hc'
    refine ⟨List.ne_nil_of_mem hp, ?_⟩
    by_cases hl : loneMove c = true
    · intro q hq
      rcases c with _ | ⟨a, _ | ⟨b, r⟩⟩
      · cases hq
      · rw [List.mem_singleton] at hq
        subst hq
        left
        simpa [loneMove] using hl
      · simp [loneMove] at hl
    · have hm : (stored c).map unsigned ∈ g1.outline.getD [] := by
        rw [hs.outline]
        exact List.mem_map.2 ⟨c, List.mem_filter.2 ⟨hc', by simpa using hl⟩, rfl⟩
      intro q hq
      obtain ⟨q', hq', e⟩ := (stored_type c q.ptype).2 ⟨q, hq, rfl⟩
      rw [← e]
      exact (hcub _ hm).2 q' hq'
  · intro a ha s has
    obtain ⟨b, hb, hab⟩ := forall₂_mem_left hs.anchors ha
    have hsay := (C85_says mid pio {} root g1 h3).anchors
    obtain ⟨e, he, hse⟩ := forall₂_mem_right hsay hb
    exact ((hse.2.1 s).1 (by rw [hab.2.2.1]; exact has)).2
  · have hl := hs.lib
    rw [read_lib h3, written_lib h2] at hl
    cases hg : g.lib with
    | none => trivial
    | plist d =>
      rw [hg] at hl
      cases hx : pio.toXml d with
      | none => simp [libXml, hx] at hl
      | some e =>
        refine ⟨e, hx, ?_⟩
        simp only [libXml, hx, Option.map_some, Option.toList_some, List.head?_cons, readLib] at hl
        split at hl
        next d' hd => cases hl; exact hd
        next => cases hl
        next => cases hl
    | xml e =>
      rw [hg] at hl
      simp only [libXml, Option.map_some, Option.toList_some, List.head?_cons, readLib] at hl
      split at hl
      next => cases hl
      next hn =>
        cases e
        simp only [Lib.xml.injEq, Element.mk.injEq] at hl
        obtain ⟨rfl, rfl, -⟩ := hl
        exact ⟨rfl, rfl, hn⟩
      next => cases hl

end GP
