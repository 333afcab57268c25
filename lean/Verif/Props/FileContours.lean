import Verif.Props.File
import Verif.Lemmas.Resave
/-!
# Which contours of a file are kept (C08), whether they can be written again (C06), and the lib (C43)
-/
open Fl
namespace GP
open Spec
variable {PD D : Type}

/-- What a successful read says about the contours. -/
theorem readGlif_contours {mid : IOF → IOF → IOF} {pio : PlistIO D} {ped : Pedantry} {root : Element} {g : Glif PD D}
    (h : readGlif mid pio ped root = .ok g) :
    ∃ gcs : List GlifContour, List.Forall₂ (fun e gc => readContour e = .ok gc) (contoursOf root) gcs ∧
      outlineOfGlif mid (gcs.filter fun c => !c.isEmpty) = .ok (g.outline.getD []) := by
  rw [readGlif_pre] at h
  cases e : readPre ped root.name root.get (fun n => named n root.children) with
  | err x => rw [e] at h; cases h
  | panic => rw [e] at h; cases h
  | ok p =>
    rw [e, Out.bind_ok] at h
    obtain ⟨gcs, hr, hg⟩ := pre_contours e
    rw [hg] at h
    refine ⟨gcs, hr, ?_⟩
    cases eo : outlineOfGlif (PD := PD) mid (gcs.filter fun c => !c.isEmpty) with
    | err x => rw [eo] at h; cases h
    | panic => rw [eo] at h; cases h
    | ok o =>
      rw [eo, Out.bind_ok, Out.ok.injEq] at h
      rw [← h]
      unfold glifOf
      simp only []
      split
      · rfl
      next hh =>
        cases o with
        | nil => rfl
        | cons a l => simp at hh

/-- A contour of the file is dropped if and only if its points say so. -/
theorem contour_dropped {e : Element} {gc : GlifContour} (h : readContour e = .ok gc) :
    dropped gc = true ↔ Dropped e := by
  have hr := contour_read h
  unfold Dropped
  generalize named "point" e.children = els at hr
  cases hr with
  | nil => simp [dropped]
  | @cons p g ps gs hpg hrest =>
    have ht := readPoint_type hpg
    simp only [dropped, Bool.or_eq_true, Bool.and_eq_true, beq_iff_eq, List.all_eq_true]
    rw [ht.2.2.2.2.1, ht.1]
    refine or_congr Iff.rfl (and_congr Iff.rfl ?_)
    constructor
    · intro hh q hq
      obtain ⟨g', hg', hr'⟩ := forall₂_mem_left hrest hq
      exact (readPoint_type hr').2.2.2.2.1.1 (hh g' hg')
    · intro hh g' hg'
      obtain ⟨q, hq, hr'⟩ := forall₂_mem_right hrest hg'
      exact (readPoint_type hr').2.2.2.2.1.2 (hh q hq)

/-! ## C08 -/

open Classical in
/-- **C08.** The contours of the glyph are, in order, the contours of the file that are not `Dropped`,
each converted to a non-empty contour. -/
theorem C08_file (mid : IOF → IOF → IOF) (pio : PlistIO D) (ped : Pedantry) (root : Element) (g : Glif PD D)
    (h : readGlif mid pio ped root = .ok g) :
    List.Forall₂ (fun e c => c ≠ [] ∧ ∃ gc, readContour e = .ok gc ∧ contourOfGlif mid gc = .ok c)
      ((contoursOf root).filter fun e => ¬ Dropped e) (g.outline.getD []) := by
  obtain ⟨gcs, hr, ho⟩ := readGlif_contours h
  generalize g.outline.getD [] = o at ho
  generalize contoursOf root = es at hr
  clear h
  induction hr generalizing o with
  | nil =>
    cases ho
    exact .nil
  | @cons e gc es gcs he hes ih =>
    have hd := contour_dropped he
    cases hgc : gc with
    | nil =>
      subst hgc
      rw [List.filter_cons_of_neg (by simp)] at ho
      rw [List.filter_cons_of_neg (by simp [← hd, dropped])]
      exact ih o ho
    | cons x xs =>
      have hf := contour_read_file he (by simp [hgc])
      rw [hgc] at he hd ho hf
      rw [List.filter_cons_of_pos (by simp)] at ho
      unfold outlineOfGlif at ho ih
      rw [Out.mapM'_cons] at ho
      cases e1 : contourOfGlif (PD := PD) mid (x :: xs) with
      | err y => rw [e1] at ho; cases ho
      | panic => rw [e1] at ho; cases ho
      | ok c =>
        rw [e1, Out.bind_ok] at ho
        cases e2 : Out.mapM' (contourOfGlif (PD := PD) mid) (gcs.filter fun c => !c.isEmpty) with
        | err y => rw [e2] at ho; cases ho
        | panic => rw [e2] at ho; cases ho
        | ok cs =>
          rw [e2] at ho ih
          simp only [Out.bind_ok, Out.ok.injEq] at ho ih
          have hdi := C08_dropped_iff (PD := PD) mid x xs hf
          rw [e1] at hdi
          have hdd : Dropped e ↔ c = [] := by
            rw [← hd, show c = [] ↔ (Out.ok c : R (Contour PD)) = .ok [] by simp, hdi]
            simp [dropped]
          by_cases hc : c = []
          · rw [List.filter_cons_of_neg (by simpa using hdd.2 hc)]
            rw [hc, List.filter_cons_of_neg (by simp)] at ho
            exact ih o ho
          · rw [List.filter_cons_of_pos (by simpa using fun hh => hc (hdd.1 hh))]
            rw [List.filter_cons_of_pos (by cases c with
              | nil => exact absurd rfl hc
              | cons a b => rfl)] at ho
            rw [← ho]
            exact .cons ⟨hc, _, he, e1⟩ (ih _ rfl)

open Classical in
/-- The number of contours read. -/
theorem C08_count (mid : IOF → IOF → IOF) (pio : PlistIO D) (ped : Pedantry) (root : Element) (g : Glif PD D)
    (h : readGlif mid pio ped root = .ok g) :
    (g.outline.getD []).length = (contoursOf root).countP fun e => ¬ Dropped e := by
  rw [← (C08_file mid pio ped root g h).length_eq, List.countP_eq_length_filter]

/-! ## C06 -/

theorem C05_no_err (c : Contour PD) (e : GErr) : intoGlifpoints c ≠ .err e := by
  intro h
  have hn : ¬ intoGlifpoints c = .panic := by rw [h]; simp
  rw [C05_panics_iff] at hn
  obtain ⟨x, r, e', _⟩ := C05_file_points c
    (by by_contra hh; exact hn (Or.inl fun p hp => by by_contra ho; exact hh ⟨p, hp, ho⟩))
    (by
      intro p hp
      have : ¬ (p.ptype = .undefined ∨ p.ptype = .qclose) := fun hh => hn (Or.inr ⟨p, hp, hh⟩)
      unfold Writable
      cases hpt : p.ptype <;> simp_all)
  rw [h] at e'; cases e'

/-- **C05** for a whole outline: the file points are, contour by contour and in order, those of the contours, up to where the
contour starts; it panics if and only if one of the contours has no on-curve point or a point that is undefined or a quadratic
close, and never gives an error. -/
theorem C05_outline (o : Outline PD) :
    (∀ r, outlineIntoGlifpoints o = .ok r →
      List.Forall₂ (fun c gc => Rotated (fileCycle c) gc ∧ ∃ g, gc.head? = some g ∧ g.ptype ≠ .offcurve) o r) ∧
    (outlineIntoGlifpoints o = .panic ↔
      ∃ c ∈ o, (∀ p ∈ c, p.ptype = .offcurve) ∨ ∃ p ∈ c, p.ptype = .undefined ∨ p.ptype = .qclose) ∧
    ∀ e, outlineIntoGlifpoints o ≠ .err e := by
  unfold outlineIntoGlifpoints
  refine ⟨fun r h => ?_, ?_, fun e h => ?_⟩
  · refine (mapM'_forall₂ h).imp fun c gc hc => ?_
    have hn : ¬ intoGlifpoints c = .panic := by rw [hc]; simp
    rw [C05_panics_iff] at hn
    obtain ⟨x, r, e', h1, h2⟩ := C05_file_points c
      (by by_contra hh; exact hn (Or.inl fun p hp => by by_contra ho; exact hh ⟨p, hp, ho⟩))
      (by
        intro p hp
        have : ¬ (p.ptype = .undefined ∨ p.ptype = .qclose) := fun hh => hn (Or.inr ⟨p, hp, hh⟩)
        unfold Writable
        cases hpt : p.ptype <;> simp_all)
    rw [hc] at e'
    cases e'
    exact ⟨h1, x, rfl, h2⟩
  · rw [mapM'_panic_iff C05_no_err]
    simp only [C05_panics_iff]
  · induction o with
    | nil => cases h
    | cons c o ih =>
      rw [Out.mapM'_cons] at h
      cases e1 : intoGlifpoints c with
      | panic => rw [e1] at h; cases h
      | err x => exact C05_no_err c x e1
      | ok gc =>
        rw [e1, Out.bind_ok] at h
        cases e2 : Out.mapM' intoGlifpoints o with
        | panic => rw [e2] at h; cases h
        | err x => rw [e2] at h; cases h; exact ih e2
        | ok r => rw [e2] at h; cases h

/-- An outline that is written. -/
example : ∃ r, outlineIntoGlifpoints [[Sample.pt .move 0 0, Sample.pt .line 5 5], [Sample.cv 0 0 1 1 2 2, Sample.pt .line 3 3]] =
    .ok r := ⟨_, rfl⟩

theorem outlineElem_panic (g : Glif PD D) :
    outlineElem g = .panic ↔ ∃ c ∈ g.outline.getD [], intoGlifpoints c = .panic := by
  have hne : ∀ (c : Contour PD) e, contourXml c ≠ .err e := by
    intro c e he
    unfold contourXml at he
    cases e1 : intoGlifpoints c with
    | ok gc => rw [e1] at he; cases he
    | panic => rw [e1] at he; cases he
    | err x => exact C05_no_err c x e1
  unfold outlineElem
  cases ho : g.outline with
  | none => simp
  | some o =>
    simp only [Option.getD_some, outlineXml]
    have := mapM'_panic_iff hne o
    have hx : ∀ c : Contour PD, contourXml c = .panic ↔ intoGlifpoints c = .panic := by
      intro c; unfold contourXml; cases intoGlifpoints c <;> simp
    simp only [hx] at this
    rw [← this]
    cases Out.mapM' contourXml o <;> simp

theorem glifXml_panic (pio : PlistIO D) (g : Glif PD D) :
    glifXml pio g = .panic ↔ ∃ c ∈ g.outline.getD [], intoGlifpoints c = .panic := by
  rw [← outlineElem_panic, glifXml_eq]
  cases outlineElem g <;> simp

/-- **C06.** A glyph that was read cannot be written (the program panics) exactly if the file has a
quadratic contour that ends with an off-curve point. -/
theorem C06_panics_iff (mid : IOF → IOF → IOF) (pio pio' : PlistIO D) (ped : Pedantry) (root : Element) (g : Glif PD D)
    (h : readGlif mid pio ped root = .ok g) :
    glifXml pio' g = .panic ↔ ∃ c ∈ contoursOf root, QuadraticEndingOff c := by
  classical
  rw [glifXml_panic]
  have hall := C08_file mid pio ped root g h
  have key : ∀ e (c : Contour PD), (c ≠ [] ∧ ∃ gc, readContour e = .ok gc ∧ contourOfGlif mid gc = .ok c) →
      (intoGlifpoints c = .panic ↔ QuadraticEndingOff e) := by
    rintro e c ⟨hne, gc, hr, hc⟩
    have hgc : gc ≠ [] := by
      rintro rfl
      cases hc
    have hf := contour_read_file hr hgc
    have hr' := contour_read hr
    unfold QuadraticEndingOff
    generalize named "point" e.children = els at hr'
    cases hr' with
    | nil => exact absurd rfl hgc
    | @cons p g ps gs hpg hrest =>
      rw [C06_contour_panics_iff mid g gs hf c hne hc]
      have ht := readPoint_type hpg
      have hlast : (∃ z, gs.getLast? = some z ∧ z.ptype = .offcurve) ↔ ∃ q, ps.getLast? = some q ∧ IsOff q := by
        clear hc hr hf hgc
        induction hrest with
        | nil => simp
        | @cons a b as bs hab habs ih =>
          cases habs with
          | nil =>
            simp only [List.getLast?_singleton, Option.some.injEq]
            constructor
            · rintro ⟨_, rfl, hz⟩; exact ⟨_, rfl, (readPoint_type hab).2.2.2.2.1.1 hz⟩
            · rintro ⟨_, rfl, hz⟩; exact ⟨_, rfl, (readPoint_type hab).2.2.2.2.1.2 hz⟩
          | cons h1 h2 =>
            rw [List.getLast?_cons_cons, List.getLast?_cons_cons]
            exact ih
      rw [ht.2.2.2.1, hlast]
      constructor
      · rintro ⟨h1, q, h2, h3⟩; exact ⟨p, ps, q, rfl, h1, h2, h3⟩
      · rintro ⟨_, _, q, e', h1, h2, h3⟩; cases e'; exact ⟨h1, q, h2, h3⟩
  constructor
  · rintro ⟨c, hc, hp⟩
    obtain ⟨e, he, hr⟩ := forall₂_mem_right hall hc
    exact ⟨e, (List.mem_filter.1 he).1, (key e c hr).1 hp⟩
  · rintro ⟨e, he, hq⟩
    have hnd : ¬ Dropped e := by
      obtain ⟨p, ps, q, e1, e2, _⟩ := hq
      unfold Dropped
      rw [e1]
      simp only []
      rintro (h1 | ⟨h1, _⟩)
      · unfold IsOff at h1; unfold OfType at e2
        exact h1 _ e2 (by decide)
      · unfold OfType at h1 e2
        rw [h1] at e2
        exact absurd (Option.some.inj e2) (by decide)
    obtain ⟨c, hc, hr⟩ := forall₂_mem_left hall (List.mem_filter.2 ⟨he, by simpa using hnd⟩)
    exact ⟨c, hc, (key e c hr).2 hq⟩

/-- Writing never returns an error. -/
theorem C06_no_err (pio : PlistIO D) (g : Glif PD D) (e : GErr) : glifXml pio g ≠ .err e := by
  rw [glifXml_eq]
  intro h
  cases e1 : outlineElem g with
  | ok x => rw [e1] at h; cases h
  | panic => rw [e1] at h; cases h
  | err x =>
    unfold outlineElem at e1
    split at e1
    · unfold outlineXml at e1
      have : ∀ o : Outline PD, ∀ x, Out.mapM' contourXml o ≠ .err x := by
        intro o
        induction o with
        | nil => intro x hx; cases hx
        | cons c o ih =>
          intro x hx
          rw [Out.mapM'_cons] at hx
          unfold contourXml at hx
          cases e2 : intoGlifpoints c with
          | err y => exact C05_no_err c y e2
          | panic => rw [e2] at hx; cases hx
          | ok gc =>
            rw [e2] at hx
            simp only [Out.bind_ok] at hx
            cases e3 : Out.mapM' contourXml o with
            | err y => exact ih y e3
            | ok z =>
              have e3' : Out.mapM' (fun c : Contour PD => intoGlifpoints c >>= fun gc => (.ok (glifContourXml gc) : R Element)) o = .ok z := e3
              rw [e3'] at hx; cases hx
            | panic =>
              have e3' : Out.mapM' (fun c : Contour PD => intoGlifpoints c >>= fun gc => (.ok (glifContourXml gc) : R Element)) o = .panic := e3
              rw [e3'] at hx; cases hx
      cases e2 : Out.mapM' contourXml _ with
      | err y => exact this _ _ e2
      | ok z => rw [e2] at e1; cases e1
      | panic => rw [e2] at e1; cases e1
    · cases e1

/-- A document of one contour whose points have coordinates is acceptable. -/
theorem doc_acceptable (ps : List Node) (h : ∀ p ∈ named "point" ps, HasNumber p "x" ∧ HasNumber p "y") :
    Acceptable {} (Sample.doc ps) := by
  refine ⟨rfl, rfl, ⟨_, rfl⟩, ?_, ?_, ?_, ?_, ?_, ?_⟩
  · intro e h; cases h
  · intro e h; cases h
  · intro e h; cases h
  · intro e h; cases h
  · intro e h; cases h
  · intro o ho
    cases ho
    refine ⟨?_, by intro c hc; cases hc⟩
    intro c hc p hp
    have : c = ⟨"contour", [], ps⟩ := List.mem_singleton.1 hc
    subst this
    exact h p hp

/-- A closed quadratic contour that ends with an off-curve point. -/
def Sample.endsOff : List Node :=
  [Sample.pe "qcurve" "0" "0", Sample.offe "5" "5", Sample.pe "qcurve" "1" "0", Sample.offe "1" "1"]

theorem endsOff_unsaved (mid : IOF → IOF → IOF) (pio : PlistIO D) :
    ∃ g : Glif PD D, readGlif mid pio {} (Sample.doc Sample.endsOff) = .ok g ∧ glifXml pio g = .panic := by
  have n0 : IOF.parse "0".toList = some (.int 0) := by decide +kernel
  have n1 : IOF.parse "1".toList = some (.int 1) := by decide +kernel
  have n5 : IOF.parse "5".toList = some (.int 5) := by decide +kernel
  let ps := Sample.endsOff
  have ha : Acceptable {} (Sample.doc Sample.endsOff) := by
    apply doc_acceptable
    intro p hp
    have hp' : p ∈ [(⟨"point", [("x", "0".toList), ("y", "0".toList), ("type", "qcurve".toList)], []⟩ : Element),
      ⟨"point", [("x", "5".toList), ("y", "5".toList)], []⟩,
      ⟨"point", [("x", "1".toList), ("y", "0".toList), ("type", "qcurve".toList)], []⟩,
      ⟨"point", [("x", "1".toList), ("y", "1".toList)], []⟩] := hp
    simp only [List.mem_cons, List.not_mem_nil, or_false] at hp'
    rcases hp' with rfl | rfl | rfl | rfl
    · exact ⟨⟨_, rfl, (C79_accepted _).1 ⟨_, n0⟩⟩, ⟨_, rfl, (C79_accepted _).1 ⟨_, n0⟩⟩⟩
    · exact ⟨⟨_, rfl, (C79_accepted _).1 ⟨_, n5⟩⟩, ⟨_, rfl, (C79_accepted _).1 ⟨_, n5⟩⟩⟩
    · exact ⟨⟨_, rfl, (C79_accepted _).1 ⟨_, n1⟩⟩, ⟨_, rfl, (C79_accepted _).1 ⟨_, n0⟩⟩⟩
    · exact ⟨⟨_, rfl, (C79_accepted _).1 ⟨_, n1⟩⟩, ⟨_, rfl, (C79_accepted _).1 ⟨_, n1⟩⟩⟩
  have hc : ∀ c ∈ contoursOf (Sample.doc Sample.endsOff), c = ⟨"contour", [], ps⟩ := fun c hc => List.mem_singleton.1 hc
  cases hg : readGlif (PD := PD) mid pio {} (Sample.doc Sample.endsOff) with
  | err e => exact absurd ha ((C58_error_iff mid pio {} _).1 ⟨e, hg⟩)
  | panic =>
    obtain ⟨_, c, hcm, hq⟩ := (C07_panics_iff mid pio {} _).1 hg
    rw [hc c hcm] at hq
    obtain ⟨p, ps', e, h, _⟩ := hq
    cases e
    rcases h with h | h | h <;> exact absurd h (by unfold OfType; decide)
  | ok g =>
    refine ⟨g, rfl, ?_⟩
    rw [C06_panics_iff mid pio pio {} _ g hg]
    exact ⟨⟨"contour", [], ps⟩, List.mem_singleton.2 rfl, _, _, _, rfl, rfl, rfl, by
      intro t ht; cases ht⟩

/-- C06 as stated is false: this closed quadratic contour is read and cannot be written. -/
theorem C06_false (mid : IOF → IOF → IOF) (pio : PlistIO D) :
    ∃ root, ∃ g : Glif PD D, readGlif mid pio {} root = .ok g ∧ glifXml pio g = .panic :=
  ⟨_, endsOff_unsaved mid pio⟩

/-- What is left of C06: a document none of whose contours is quadratic and ends off-curve is written
again. -/
theorem C06_partial (mid : IOF → IOF → IOF) (pio pio' : PlistIO D) (ped : Pedantry) (root : Element) (g : Glif PD D)
    (h : readGlif mid pio ped root = .ok g) (hq : ∀ c ∈ contoursOf root, ¬ QuadraticEndingOff c) :
    ∃ e, glifXml pio' g = .ok e := by
  cases hx : glifXml pio' g with
  | ok e => exact ⟨e, rfl⟩
  | err e => exact absurd hx (C06_no_err pio' g e)
  | panic =>
    obtain ⟨c, hc, hqc⟩ := (C06_panics_iff mid pio pio' ped root g h).1 hx
    exact absurd hqc (hq c hc)

/-! ## C43 -/

theorem outlineElem_name {g : Glif PD D} {oe : Element} (h : outlineElem g = .ok oe) : oe.name = "outline" := by
  unfold outlineElem at h
  split at h
  · unfold outlineXml at h
    cases e1 : Out.mapM' contourXml _ with
    | ok x => rw [e1] at h; cases h; rfl
    | err x => rw [e1] at h; cases h
    | panic => rw [e1] at h; cases h
  · cases h; rfl

/-- The `<lib>` of the written document. -/
theorem written_lib {pio : PlistIO D} {g : Glif PD D} {e : Element} (h : glifXml pio g = .ok e) :
    named "lib" e.children = (libXml pio g.lib).toList := by
  rw [glifXml_eq] at h
  cases ho : outlineElem g with
  | err x => rw [ho] at h; cases h
  | panic => rw [ho] at h; cases h
  | ok oe =>
    rw [ho] at h
    cases h
    have hn := outlineElem_name ho
    unfold writtenKids
    simp only [named_append]
    rw [named_nodes _ "advance" advanceXml (fun _ => rfl), named_nodes _ "unicode" unicodeXml (fun _ => rfl),
      named_nodes _ "anchor" anchorXml (fun a => by simp), named_nodes _ "image" imageXml (fun a => by simp),
      named_nodes _ "guideline" guidelineXml (fun a => by simp), named_nodes _ "note" noteXml (fun _ => rfl)]
    have h1 : named "lib" (if 1 ≤ (oe.children ++ g.components.vec.map fun c => (componentXml c).node).length then
        [({ oe with children := oe.children ++ g.components.vec.map fun c => (componentXml c).node } : Element).node] else []) = [] := by
      split
      · rw [named_node, if_neg (by rw [hn]; decide)]
      · rfl
    have h2 : named "lib" ((libXml pio g.lib).toList.map fun e => e.node) = (libXml pio g.lib).toList := by
      cases hl : libXml pio g.lib with
      | none => rfl
      | some e => rw [Option.toList_some, List.map_singleton, named_node, libXml_name hl, if_pos rfl]
    rw [h1, h2]
    simp

theorem read_lib {mid : IOF → IOF → IOF} {pio : PlistIO D} {ped : Pedantry} {root : Element} {g : Glif PD D}
    (h : readGlif mid pio ped root = .ok g) :
    g.lib = match (named "lib" root.children).head? with
      | some e => readLib pio e
      | none => .none := by
  rw [readGlif_pre] at h
  cases e : readPre ped root.name root.get (fun n => named n root.children) with
  | err x => rw [e] at h; cases h
  | panic => rw [e] at h; cases h
  | ok p =>
    rw [e, Out.bind_ok] at h
    cases eo : outlineOfGlif (PD := PD) mid ((p.outline.map Prod.fst).getD []) with
    | err x => rw [eo] at h; cases h
    | panic => rw [eo] at h; cases h
    | ok o => rw [eo] at h; cases h; rfl

/-- **C43**, as far as it holds.  A document with a `<lib>` whose content is a dictionary gives that
dictionary, and the written document has one `<lib>` with what the library prints for it; a `<lib>` that
the XML library cannot print comes back unchanged (but for its attributes).  Missing: printable `<lib>`s
that are not a dictionary, see `C43_false`. -/
theorem C43_partial (mid : IOF → IOF → IOF) (pio : PlistIO D) (ped : Pedantry) (root e : Element) (g : Glif PD D)
    (h : readGlif mid pio ped root = .ok g) (hl : (named "lib" root.children).head? = some e) :
    (∀ d x, pio.fromXml ⟨"plist", e.attrs, e.children⟩ = some (some d) → pio.toXml d = some x →
      g.lib = .plist d ∧ ∀ w, glifXml pio g = .ok w → named "lib" w.children = [⟨"lib", [], x.children⟩]) ∧
    (pio.fromXml ⟨"plist", e.attrs, e.children⟩ = none →
      ∀ w, glifXml pio g = .ok w → named "lib" w.children = [⟨"lib", [], e.children⟩]) := by
  have hg := read_lib h
  rw [hl] at hg
  simp only [readLib] at hg
  constructor
  · intro d x hd hx
    rw [hd] at hg
    refine ⟨hg, fun w hw => ?_⟩
    rw [written_lib hw, hg]
    simp [libXml, hx]
  · intro hd w hw
    rw [hd] at hg
    rw [written_lib hw, hg]
    simp [libXml]

/-- **C43**, exactly: the `<lib>` of a document is lost if and only if it is printed and is no dictionary for the plist
library, or is one that the plist library cannot print.  A document without one gets none. -/
theorem C43_exact (mid : IOF → IOF → IOF) (pio : PlistIO D) (ped : Pedantry) (root w : Element) (g : Glif PD D)
    (h : readGlif mid pio ped root = .ok g) (hw : glifXml pio g = .ok w) :
    named "lib" w.children = [] ↔ ∀ e, (named "lib" root.children).head? = some e →
      pio.fromXml ⟨"plist", e.attrs, e.children⟩ = some none ∨
        ∃ d, pio.fromXml ⟨"plist", e.attrs, e.children⟩ = some (some d) ∧ pio.toXml d = none := by
  have hg := read_lib h
  rw [written_lib hw, hg]
  cases hl : (named "lib" root.children).head? with
  | none => simp [libXml]
  | some e =>
    simp only [readLib, Option.some.injEq, forall_eq']
    cases hd : pio.fromXml ⟨"plist", e.attrs, e.children⟩ with
    | none => simp [libXml]
    | some o =>
      cases o with
      | none => simp [libXml]
      | some d => cases hx : pio.toXml d <;> simp [libXml, hx]

/-- C43 as stated is false: a `<lib>` that the plist library does not accept as a dictionary (an array,
say, or an unknown tag) is read as nothing and not written. -/
theorem C43_false (mid : IOF → IOF → IOF) (pio : PlistIO D) (kids : List Node)
    (h : pio.fromXml ⟨"plist", [], kids⟩ = some none) :
    ∃ root, named "lib" root.children = [⟨"lib", [], kids⟩] ∧ ∃ g : Glif PD D, readGlif mid pio {} root = .ok g ∧
      g.lib = .none ∧ ∃ w, glifXml pio g = .ok w ∧ named "lib" w.children = [] := by
  let root : Element := { name := "glyph", attrs := [("name", "a".toList), ("format", "2".toList)]
                          children := [.elem "lib" [] kids] }
  have ha : Acceptable {} root := by
    refine ⟨rfl, rfl, ⟨_, rfl⟩, ?_, ?_, ?_, ?_, ?_, ?_⟩ <;> intro e h <;> cases h
  have hc : contoursOf root = [] := rfl
  refine ⟨root, rfl, ?_⟩
  cases hg : readGlif (PD := PD) mid pio {} root with
  | err e => exact absurd ha ((C58_error_iff mid pio {} _).1 ⟨e, hg⟩)
  | panic =>
    obtain ⟨_, c, hcm, _⟩ := (C07_panics_iff mid pio {} _).1 hg
    rw [hc] at hcm; cases hcm
  | ok g =>
    have hl : g.lib = .none := by
      rw [read_lib hg]
      show readLib pio ⟨"lib", [], kids⟩ = _
      simp [readLib, h]
    obtain ⟨w, hw⟩ := C06_partial mid pio pio {} root g hg (by rw [hc]; intro c hc; cases hc)
    refine ⟨g, rfl, hl, w, hw, ?_⟩
    rw [written_lib hw, hl]
    rfl

/-- A library as assumed in `C43_false`: it takes `<dict>` elements only. -/
example : ∃ pio : PlistIO Unit, pio.fromXml ⟨"plist", [], [.elem "array" [] []]⟩ = some none ∧
    pio.fromXml ⟨"plist", [], [.elem "dict" [] []]⟩ = some (some ()) ∧ pio.toXml () = some ⟨"plist", [], [.elem "dict" [] []]⟩ :=
  ⟨⟨fun e => match e.children with
      | [.elem "dict" _ _] => some (some ())
      | _ => some none, fun _ => some ⟨"plist", [], [.elem "dict" [] []]⟩⟩, rfl, rfl, rfl⟩

/-- The hypothesis of `C08_file` and `C06_panics_iff` is met by a document with a contour. -/
example (mid : IOF → IOF → IOF) (pio : PlistIO D) : ∃ root, ∃ g : Glif PD D,
    readGlif mid pio {} root = .ok g ∧ g.outline.getD [] ≠ [] := by
  obtain ⟨root, g, h1, h2⟩ := C06_false (PD := PD) mid pio
  obtain ⟨c, hc, _⟩ := (glifXml_panic pio g).1 h2
  exact ⟨root, g, h1, List.ne_nil_of_mem hc⟩

end GP
