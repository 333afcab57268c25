import Verif.Spec.Resave
import Verif.Lemmas.FileWrite
import Verif.Lemmas.ContourIO2
import Verif.Props.Strings
import Verif.Props.ContourIO
/-!
# Saving and reading again
-/
open Fl Fl.Text
namespace GP
variable {PD D : Type}
open Spec

/-! ## Elements among children -/

theorem named_node (n : String) (e : Element) : named n [e.node] = if e.name = n then [e] else [] := by
  unfold Element.node
  rw [named_cons_elem]; simp

theorem named_nodes {α : Type} (n m : String) (f : α → Element) (h : ∀ a, (f a).name = m) (l : List α) :
    named n (l.map fun a => (f a).node) = if m = n then l.map f else [] := by
  induction l with
  | nil => simp
  | cons a l ih =>
    rw [List.map_cons, named_cons, named_node, ih, h a]
    split <;> simp

@[simp] theorem advanceXml_name (w : Nat) : (advanceXml w).name = "advance" := rfl
@[simp] theorem unicodeXml_name (c : Char) : (unicodeXml c).name = "unicode" := rfl
@[simp] theorem anchorXml_name (a : Anchor) : (anchorXml a).name = "anchor" := by unfold anchorXml; simp
@[simp] theorem pointXml_name (p : GlifPoint) : (pointXml p).name = "point" := by
  unfold pointXml; simp only []; split <;> split <;> simp
@[simp] theorem writeMatrix_name (e : Element) (m : Mat6) (i : Option Str) : (writeMatrix e m i).name = e.name := by
  unfold writeMatrix; simp
@[simp] theorem componentXml_name (c : GlifComponent) : (componentXml c).name = "component" := by unfold componentXml; simp
@[simp] theorem imageXml_name (c : GlifImage) : (imageXml c).name = "image" := by unfold imageXml; simp
@[simp] theorem guidelineXml_name (g : Guideline) : (guidelineXml g).name = "guideline" := by unfold guidelineXml; simp

/-! ## Points -/

/-- A file point as it comes back from text. -/
def GlifPoint.reread (p : GlifPoint) : GlifPoint := { p with x := p.x.reread, y := p.y.reread }

theorem pointXml_get (p : GlifPoint) :
    (pointXml p).get "x" = some p.x.text ∧ (pointXml p).get "y" = some p.y.text ∧ (pointXml p).get "name" = p.name ∧
    (pointXml p).get "type" = (if p.ptype.text = "offcurve".toList then none else some p.ptype.text) ∧
    (pointXml p).get "smooth" = (if p.smooth then some "yes".toList else none) := by
  unfold pointXml
  generalize "offcurve".toList = oc
  generalize "yes".toList = yes
  simp only []
  split <;> split <;> cases p.name <;> simp

theorem type_written (t : PointType) (hw : Writable t) :
    PointType.parse ((if t.text = "offcurve".toList then none else some t.text).getD "offcurve".toList) = t := by
  rcases hw with rfl | rfl | rfl | rfl | rfl <;> decide

theorem readPoint_written (p : GlifPoint) (hw : Writable p.ptype) (hs : p.ptype = .offcurve → p.smooth = false) :
    readPoint (pointXml p) = .ok p.reread := by
  obtain ⟨h1, h2, h3, h4, h5⟩ := pointXml_get p
  unfold readPoint needIof need
  rw [h1, h2, h3, h4, h5, type_written _ hw]
  simp only [Out.ofOption_some, Out.bind_ok, IOF.parse_show_eq]
  have hv : p.ptype.isValid = true := by rcases hw with h | h | h | h | h <;> rw [h] <;> rfl
  rw [if_pos hv]
  have : (match (if p.smooth = true then some "yes".toList else none : Option Str) with
      | some s => if s = "yes".toList then p.ptype != .offcurve else false
      | none => false) = p.smooth := by
    cases hsm : p.smooth with
    | false => rfl
    | true =>
      have : p.ptype ≠ .offcurve := fun h => by rw [hs h] at hsm; cases hsm
      rw [if_pos rfl]
      simp only [if_true]
      simpa using this
  exact congrArg (fun b => (.ok { x := p.x.reread, y := p.y.reread, smooth := b, name := p.name, ptype := p.ptype } : R GlifPoint)) this

theorem readContour_written (gc : GlifContour) (hw : ∀ p ∈ gc, Writable p.ptype)
    (hs : ∀ p ∈ gc, p.ptype = .offcurve → p.smooth = false) :
    readContour (glifContourXml gc) = .ok (gc.map GlifPoint.reread) := by
  rw [readContour_eq]
  unfold glifContourXml
  simp only []
  rw [named_nodes "point" "point" pointXml pointXml_name, if_pos rfl]
  have : ∀ l : GlifContour, (∀ p ∈ l, Writable p.ptype) → (∀ p ∈ l, p.ptype = .offcurve → p.smooth = false) →
      Out.mapM' readPoint (l.map pointXml) = .ok (l.map GlifPoint.reread) := by
    intro l
    induction l with
    | nil => intros; rfl
    | cons p l ih =>
      intro hw hs
      rw [List.map_cons, Out.mapM'_cons, readPoint_written p (hw p List.mem_cons_self) (hs p List.mem_cons_self), Out.bind_ok,
        ih (fun q hq => hw q (List.mem_cons_of_mem _ hq)) (fun q hq => hs q (List.mem_cons_of_mem _ hq))]
      rfl
  exact this gc hw hs

/-! ## Reading a contour of reread points -/

theorem ofGlifPoint_reread (o : Option GlifPoint) :
    Handle.ofGlifPoint (o.map GlifPoint.reread) = unsignedHandle (Handle.ofGlifPoint o) := by
  cases o with
  | none => rfl
  | some p => simp [Handle.ofGlifPoint, GlifPoint.reread, unsignedHandle, IOF.reread_toF32]

theorem modLast_unsigned (h : Handle) (c : Contour PD) :
    modLast (fun p : Point PD => { p with a := unsignedHandle h }) (c.map unsigned) =
      (modLast (fun p : Point PD => { p with a := h }) c).map unsigned := by
  induction c with
  | nil => rfl
  | cons p c ih =>
    cases c with
    | nil => rfl
    | cons q c => simp only [List.map_cons, modLast] at ih ⊢; rw [ih]

theorem cubicStep_reread (st : Contour PD × List GlifPoint) (g : GlifPoint) :
    cubicStep (st.1.map unsigned, st.2.map GlifPoint.reread) g.reread =
      (cubicStep st g >>= fun st' => .ok (st'.1.map unsigned, st'.2.map GlifPoint.reread)) := by
  rcases st with ⟨c, q⟩
  unfold cubicStep
  have hp : g.reread.ptype = g.ptype := rfl
  rw [hp]
  cases g.ptype <;> simp only [Out.bind_ok, Out.bind_panic, List.map_append, List.map_cons, List.map_nil,
    List.head?_map, ← List.map_tail, ofGlifPoint_reread, modLast_unsigned]
  all_goals simp [unsigned, GlifPoint.reread, IOF.reread_toF32, List.map_tail]

theorem foldR_reread (gc : GlifContour) : ∀ st : Contour PD × List GlifPoint,
    foldR cubicStep (st.1.map unsigned, st.2.map GlifPoint.reread) (gc.map GlifPoint.reread) =
      (foldR cubicStep st gc >>= fun st' => .ok (st'.1.map unsigned, st'.2.map GlifPoint.reread)) := by
  induction gc with
  | nil => intro st; rfl
  | cons g gc ih =>
    intro st
    rw [List.map_cons, foldR, foldR, cubicStep_reread]
    cases cubicStep st g with
    | ok st' => simp only [Out.bind_ok]; exact ih st'
    | err e => rfl
    | panic => rfl

theorem cubicContour_reread (gc : GlifContour) :
    cubicContour (PD := PD) (gc.map GlifPoint.reread) = (cubicContour gc >>= fun c => .ok (c.map unsigned)) := by
  unfold cubicContour
  have := foldR_reread (PD := PD) gc ([], [])
  simp only [List.map_nil] at this
  rw [this]
  cases foldR (cubicStep (PD := PD)) ([], []) gc with
  | err e => rfl
  | panic => rfl
  | ok st =>
    obtain ⟨c, q⟩ := st
    simp only [Out.bind_ok, List.head?_map, ← List.map_tail, ofGlifPoint_reread, modLast_unsigned]
    generalize modLast (fun p : Point PD => { p with a := Handle.ofGlifPoint q.head? }) c = d
    cases d with
    | nil => rfl
    | cons p d =>
      simp only [List.map_cons]
      have hp : (unsigned p).ptype = p.ptype := rfl
      rw [hp]
      by_cases hm : p.ptype = .move
      · simp only [hm, ne_eq, not_true_eq_false, if_false]
        cases d with
        | nil => simp [hm, hp]
        | cons q d => simp
      · simp only [hm, ne_eq, not_false_eq_true, if_true]
        cases d with
        | nil => simp [hm, unsigned]
        | cons q d => simp [unsigned]

theorem fileCycle_mem {c : Contour PD} {g : GlifPoint} (h : g ∈ fileCycle c) :
    (∃ xy, g = off xy) ∨ ∃ p ∈ c, p.ptype ≠ .offcurve ∧ g = on p := by
  unfold fileCycle at h
  obtain ⟨⟨q, p⟩, hm, hg⟩ := List.mem_flatMap.1 h
  have hp : p ∈ c := by
    rw [← mem_cyclicPairs_snd c]
    exact List.mem_map.2 ⟨_, hm, rfl⟩
  unfold written at hg
  simp only [] at hg
  split at hg
  · cases hg
  next ho =>
    rcases List.mem_append.1 hg with hg | hg
    · unfold offsBefore at hg
      split at hg
      · simp only [List.mem_cons, List.not_mem_nil, or_false] at hg
        rcases hg with rfl | rfl
        · exact Or.inl ⟨_, rfl⟩
        · exact Or.inl ⟨_, rfl⟩
      · simp only [List.mem_cons, List.not_mem_nil, or_false] at hg
        exact Or.inl ⟨_, hg⟩
      · cases hg
    · exact Or.inr ⟨p, hp, ho, List.mem_singleton.1 hg⟩

/-- One cubic contour, written as text and read again. -/
theorem contour_text_trip (mid : IOF → IOF → IOF) {c : Contour PD} (hne : c ≠ []) (hc : Cubic c) :
    ∃ gc, intoGlifpoints c = .ok gc ∧ gc ≠ [] ∧ (∀ p ∈ gc, Writable p.ptype) ∧
      (∀ p ∈ gc, p.ptype = .offcurve → p.smooth = false) ∧
      contourOfGlif (PD := PD) mid (gc.map GlifPoint.reread) =
        .ok (if loneMove c then [] else (stored c).map unsigned) := by
  have hw : ∀ p ∈ c, Writable p.ptype := fun p hp => by
    rcases hc p hp with h | h | h <;> rw [h] <;> simp [Writable]
  obtain ⟨p0, hp0⟩ := List.exists_mem_of_ne_nil c hne
  obtain ⟨x, r, e, ⟨s, t, hs, ht⟩, hx⟩ := C05_file_points c ⟨p0, hp0, by
    rcases hc p0 hp0 with h | h | h <;> rw [h] <;> decide⟩ hw
  have hmem : ∀ g ∈ x :: r, (∃ xy, g = off xy) ∨ ∃ p ∈ c, p.ptype ≠ .offcurve ∧ g = on p := by
    intro g hg
    apply fileCycle_mem
    rw [hs]; rw [ht] at hg
    rcases List.mem_append.1 hg with h | h
    · exact List.mem_append_right _ h
    · exact List.mem_append_left _ h
  refine ⟨x :: r, e, by simp, ?_, ?_, ?_⟩
  · intro g hg
    rcases hmem g hg with ⟨xy, rfl⟩ | ⟨p, hp, _, rfl⟩
    · simp [off, Writable]
    · exact hw p hp
  · intro g hg ho
    rcases hmem g hg with ⟨xy, rfl⟩ | ⟨p, hp, hn, rfl⟩
    · rfl
    · exact absurd ho hn
  · have hxt : x.ptype = .move ∨ x.ptype = .line ∨ x.ptype = .curve := by
      rcases hmem x List.mem_cons_self with ⟨xy, rfl⟩ | ⟨p, hp, _, rfl⟩
      · exact absurd rfl hx
      · exact hc p hp
    have hd : ∀ gc : GlifContour, ∀ y l, gc = y :: l → (y.ptype = .move ∨ y.ptype = .line ∨ y.ptype = .curve) →
        contourOfGlif (PD := PD) mid gc = cubicContour gc := by
      rintro gc y l rfl h
      unfold contourOfGlif
      rcases h with h | h | h <;> simp only [h]
    rw [hd ((x :: r).map GlifPoint.reread) x.reread (r.map GlifPoint.reread) rfl hxt, cubicContour_reread, ← hd _ x r rfl hxt]
    by_cases hl : loneMove c = true
    · rw [if_pos hl]
      have : ∃ p, c = [p] ∧ p.ptype = .move := by
        unfold loneMove at hl
        split at hl
        next p => exact ⟨p, rfl, by simpa using hl⟩
        next => cases hl
      obtain ⟨p, rfl, hp⟩ := this
      have := C03_lone_move mid p hp
      rw [e, Out.bind_ok] at this
      rw [this]; rfl
    · rw [if_neg hl]
      have := C03_cubic_round_trip mid c hc hne (by
        rintro p rfl hp
        exact hl (by simp [loneMove, hp]))
      rw [e, Out.bind_ok] at this
      rw [this]; rfl

/-! ## Whole glyphs -/

/-- What comes back for an anchor. -/
def savedAnchor (a : Anchor) : Anchor :=
  { x := a.x.normZero, y := a.y.normZero, cls := a.cls, atype := AnchorType.ofClass a.cls }
def savedComponent (c : GlifComponent) : GlifComponent := { c with filename := none, m := c.m.reread }
def savedImage (i : GlifImage) : GlifImage := { i with m := i.m.reread, color := none }
def savedGuideline (g : Guideline) : Guideline :=
  { g with angle := g.angle.reread, color := g.color.map Color.reread }

/-- What comes back for a glyph. -/
def saved (g : Glif PD D) : Glif PD D :=
  { outline := if !(resavedOutline (g.outline.getD [])).isEmpty || !(g.components.vec.map savedComponent).isEmpty
      then some (resavedOutline (g.outline.getD [])) else none
    anchors := g.anchors.map savedAnchor
    components := { root := g.name, vec := g.components.vec.map savedComponent }
    guidelines := g.guidelines.map savedGuideline
    images := g.images.map savedImage
    width := g.width, unicode := g.unicode, name := g.name, note := g.note, filename := none, lib := g.lib }

theorem readAnchor_written (a : Anchor) (h : ∀ s, a.cls = some s → s ≠ [] ∧ ∀ c ∈ s, ¬ Control c) :
    readAnchor {} (anchorXml a) = .ok (savedAnchor a) := by
  have hx : (anchorXml a).get "x" = some (IOF.float a.x).text := by unfold anchorXml; cases a.cls <;> simp [IOF.text]
  have hy : (anchorXml a).get "y" = some (IOF.float a.y).text := by unfold anchorXml; cases a.cls <;> simp [IOF.text]
  have hn : (anchorXml a).get "name" = a.cls := by unfold anchorXml; cases a.cls <;> simp
  have hcls : anchorClass a.cls = a.cls := by
    unfold anchorClass
    cases hc : a.cls with
    | none => rfl
    | some s =>
      simp only []
      obtain ⟨h1, h2⟩ := h s hc
      rw [((C15_non_empty s s).1).2 ⟨rfl, h1, h2⟩]
  unfold readAnchor needIof need
  rw [hx, hy, hn, hcls]
  simp only [Out.ofOption_some, Out.bind_ok, IOF.parse_show_eq]
  unfold Anchor.fromGlif
  simp [Level.maybeRound, Level.isSfnt, IOF.reread_toF32, savedAnchor]
  exact ⟨rfl, rfl⟩

theorem outline_written (mid : IOF → IOF → IOF) (o : Outline PD) (h : ∀ c ∈ o, c ≠ [] ∧ Cubic c) :
    ∃ els : List Element, Out.mapM' contourXml o = .ok els ∧ (∀ e ∈ els, e.name = "contour") ∧
      els.length = o.length ∧
      ∃ gcs, Out.mapM' readContour els = .ok gcs ∧ gcs.filter (fun c => !c.isEmpty) = gcs ∧
        outlineOfGlif (PD := PD) mid gcs = .ok (resavedOutline o) := by
  induction o with
  | nil => exact ⟨[], rfl, by simp, rfl, [], rfl, rfl, rfl⟩
  | cons c o ih =>
    obtain ⟨els, e1, e2, e2', gcs, e3, e4, e5⟩ := ih (fun c hc => h c (List.mem_cons_of_mem _ hc))
    obtain ⟨hne, hc⟩ := h c List.mem_cons_self
    obtain ⟨gc, g1, g2, g3, g4, g5⟩ := contour_text_trip mid hne hc
    refine ⟨glifContourXml gc :: els, ?_, ?_, by simp [e2'], gc.map GlifPoint.reread :: gcs, ?_, ?_, ?_⟩
    · rw [Out.mapM'_cons]
      unfold contourXml
      rw [g1]
      simp only [Out.bind_ok]
      have : Out.mapM' (fun c : Contour PD => intoGlifpoints c >>= fun gc => (.ok (glifContourXml gc) : R Element)) o = .ok els := e1
      rw [this]; rfl
    · intro e he
      rcases List.mem_cons.1 he with rfl | he
      · rfl
      · exact e2 e he
    · rw [Out.mapM'_cons, readContour_written gc g3 g4, Out.bind_ok, e3]; rfl
    · cases gc with
      | nil => exact absurd rfl g2
      | cons g gs => rw [List.map_cons, List.filter_cons_of_pos (by rfl), e4]
    · unfold outlineOfGlif at e5 ⊢
      rw [Out.mapM'_cons, g5, Out.bind_ok]
      cases e6 : Out.mapM' (contourOfGlif (PD := PD) mid) gcs with
      | err e => rw [e6] at e5; cases e5
      | panic => rw [e6] at e5; cases e5
      | ok cs =>
        rw [e6, Out.bind_ok, Out.ok.injEq] at e5
        simp only [Out.bind_ok, Out.ok.injEq]
        unfold resavedOutline at e5 ⊢
        by_cases hl : loneMove c = true
        · rw [if_pos hl, List.filter_cons_of_neg (by simp), e5, List.filter_cons_of_neg (by simp [hl])]
        · have hne' : (stored c).map unsigned ≠ [] := by
            intro hh
            have := C03_same_points c
            rw [List.map_eq_nil_iff.1 hh] at this
            obtain ⟨s, t, h1, h2⟩ := this
            rw [List.map_nil] at h2
            have h2' := List.append_eq_nil_iff.1 h2.symm
            rw [h2'.1, h2'.2] at h1
            exact hne (List.map_eq_nil_iff.1 h1)
          rw [if_neg hl, List.filter_cons_of_pos (by
            cases hs : (stored c).map unsigned with
            | nil => exact absurd hs hne'
            | cons a b => rfl), e5, List.filter_cons_of_pos (by simp [hl]), List.map_cons]

theorem mapM'_map_ok {α β γ : Type} {f : β → R γ} {k : α → β} {g : α → γ} {l : List α}
    (h : ∀ a ∈ l, f (k a) = .ok (g a)) : Out.mapM' f (l.map k) = .ok (l.map g) := by
  induction l with
  | nil => rfl
  | cons a l ih =>
    rw [List.map_cons, Out.mapM'_cons, h a List.mem_cons_self, Out.bind_ok, ih (fun b hb => h b (List.mem_cons_of_mem _ hb))]
    rfl

theorem lib_written (pio : PlistIO D) (l : Lib D) (h : LibSurvives pio l) :
    (match (libXml pio l) with
      | some e => readLib pio e
      | none => .none) = l := by
  cases l with
  | none => rfl
  | plist d =>
    obtain ⟨e, h1, h2⟩ := h
    unfold libXml readLib
    simp only [h1, Option.map_some, h2]
  | xml e =>
    obtain ⟨h1, h2, h3⟩ := h
    rcases e with ⟨n, a, c⟩
    simp only at h1 h2
    subst h1 h2
    unfold libXml readLib
    simp only [Option.map_some, h3]

/-- The outline element before the components are added. -/
def outlineElem (g : Glif PD D) : R Element :=
  match g.outline with
  | some o => outlineXml o
  | none => .ok ({ name := "outline" } : Element)

/-- The children of the written glyph. -/
def writtenKids (pio : PlistIO D) (g : Glif PD D) (oe : Element) : List Node :=
  (g.width.toList.map fun w => (advanceXml w).node) ++ (g.unicode.map fun c => (unicodeXml c).node) ++
    (g.anchors.map fun a => (anchorXml a).node) ++
    (if 1 ≤ (oe.children ++ g.components.vec.map fun c => (componentXml c).node).length then
      [({ oe with children := oe.children ++ g.components.vec.map fun c => (componentXml c).node } : Element).node] else []) ++
    (g.images.map fun i => (imageXml i).node) ++ (g.guidelines.map fun l => (guidelineXml l).node) ++
    (g.note.toList.map fun n => (noteXml n).node) ++ ((libXml pio g.lib).toList.map fun e => e.node)

theorem glifXml_eq (pio : PlistIO D) (g : Glif PD D) :
    glifXml pio g = (outlineElem g >>= fun oe =>
      .ok { (({ name := "glyph" } : Element).set "name" g.name).set "format" "2".toList with
        children := writtenKids pio g oe }) := by
  unfold glifXml outlineElem writtenKids
  cases g.outline <;> cases g.width <;> cases g.note <;> cases libXml pio g.lib <;> rfl

theorem libXml_name {pio : PlistIO D} {l : Lib D} {e : Element} (h : libXml pio l = some e) : e.name = "lib" := by
  unfold libXml at h
  split at h
  · cases hd : pio.toXml _ with
    | none => rw [hd] at h; cases h
    | some x => rw [hd] at h; cases h; rfl
  · cases h; rfl
  · cases h

/-- Writing a saveable glyph and reading it again. -/
theorem glif_trip (mid : IOF → IOF → IOF) (pio : PlistIO D) (g : Glif PD D) (h : Saveable pio g) :
    (glifXml pio g >>= readGlif mid pio {}) = .ok (saved g) := by
  -- the outline element
  obtain ⟨els, e1, e3, gcs, e4, e5, e6⟩ : ∃ els : List Element,
      outlineElem g = .ok { name := "outline", children := els.map Element.node } ∧ (∀ e ∈ els, e.name = "contour") ∧
      ∃ gcs, Out.mapM' readContour els = .ok gcs ∧ gcs.filter (fun c => !c.isEmpty) = gcs ∧
        outlineOfGlif (PD := PD) mid gcs = .ok (resavedOutline (g.outline.getD [])) := by
    unfold outlineElem
    cases ho : g.outline with
    | none => exact ⟨[], rfl, by simp, [], rfl, rfl, rfl⟩
    | some o =>
      obtain ⟨els, e1, e2, _, gcs, e3, e4, e5⟩ := outline_written mid o (h.contours o ho)
      refine ⟨els, ?_, e2, gcs, e3, e4, e5⟩
      simp only [outlineXml, e1, Out.bind_ok]
  rw [glifXml_eq, e1, Out.bind_ok, Out.bind_ok, readGlif_pre]
  have hlib : ∀ n, named n ((libXml pio g.lib).toList.map fun e => e.node) =
      if n = "lib" then (libXml pio g.lib).toList else [] := by
    intro n
    cases hl : libXml pio g.lib with
    | none => simp [named]
    | some e =>
      rw [Option.toList_some, List.map_singleton, named_node, libXml_name hl]
      by_cases hn : n = "lib" <;> simp [hn, eq_comm]
  have hname : (({ name := "glyph" } : Element).set "name" g.name |>.set "format" "2".toList).name = "glyph" := rfl
  generalize hkids : writtenKids pio g { name := "outline", children := els.map Element.node } = kids
  have hk : ∀ n, named n kids =
      (if "advance" = n then g.width.toList.map advanceXml else []) ++
      (if "unicode" = n then g.unicode.map unicodeXml else []) ++
      (if "anchor" = n then g.anchors.map anchorXml else []) ++
      (if "outline" = n then
        (if 1 ≤ (els.map Element.node ++ g.components.vec.map fun c => (componentXml c).node).length then
          [({ name := "outline", children := els.map Element.node ++ g.components.vec.map fun c => (componentXml c).node } : Element)]
        else []) else []) ++
      (if "image" = n then g.images.map imageXml else []) ++
      (if "guideline" = n then g.guidelines.map guidelineXml else []) ++
      (if "note" = n then g.note.toList.map noteXml else []) ++
      (if n = "lib" then (libXml pio g.lib).toList else []) := by
    intro n
    rw [← hkids]
    unfold writtenKids
    simp only [named_append, hlib]
    rw [named_nodes n "advance" advanceXml (fun _ => rfl), named_nodes n "unicode" unicodeXml (fun _ => rfl),
      named_nodes n "anchor" anchorXml (fun a => by simp), named_nodes n "image" imageXml (fun a => by simp),
      named_nodes n "guideline" guidelineXml (fun a => by simp), named_nodes n "note" noteXml (fun _ => rfl)]
    congr 5
    split
    · rw [named_node]
    · simp [named]
  have k1 := hk "advance"
  have k2 := hk "unicode"
  have k3 := hk "anchor"
  have k4 := hk "outline"
  have k5 := hk "image"
  have k6 := hk "guideline"
  have k7 := hk "note"
  have k8 := hk "lib"
  simp at k1 k2 k3 k5 k6 k7 k8
  simp only [String.reduceEq, if_true, if_false, List.nil_append, List.append_nil] at k4
  have hcs : named "contour" (els.map Element.node ++ g.components.vec.map fun c => (componentXml c).node) = els := by
    rw [named_append, named_nodes "contour" "component" componentXml (fun a => by simp)]
    simp only [String.reduceEq, if_false, List.append_nil]
    clear e4 k4 hk hkids e1
    induction els with
    | nil => rfl
    | cons e l ih =>
      rw [List.map_cons, named_cons, named_node, e3 e List.mem_cons_self, ih (fun e he => e3 e (List.mem_cons_of_mem _ he))]
      rfl
  have hcomp : named "component" (els.map Element.node ++ g.components.vec.map fun c => (componentXml c).node) =
      g.components.vec.map componentXml := by
    rw [named_append, named_nodes "component" "component" componentXml (fun a => by simp), if_pos rfl]
    clear e4 k4 hk hkids e1 hcs
    induction els with
    | nil => rfl
    | cons e l ih =>
      rw [List.map_cons, named_cons, named_node, e3 e List.mem_cons_self, if_neg (by decide), List.append_assoc,
        ih (fun e he => e3 e (List.mem_cons_of_mem _ he))]
      rfl
  obtain ⟨p, hp, hp1, hp2⟩ : ∃ p, readOpt readOutline (named "outline" kids).head? = .ok p ∧
      (p.map Prod.fst).getD [] = gcs ∧ (p.map Prod.snd).getD [] = g.components.vec.map savedComponent := by
    rw [k4]
    split
    next hlen =>
      refine ⟨some (gcs, g.components.vec.map savedComponent), ?_, rfl, rfl⟩
      rw [List.head?_cons]
      unfold readOpt
      simp only [readOutline_eq, readOutlineBy, hcs, hcomp, e4, Out.bind_ok, e5]
      rw [mapM'_map_ok (g := savedComponent) fun c _ => readComponent_written c]
      rfl
    next hlen =>
      have h0 : els = [] ∧ g.components.vec = [] := by
        simp only [List.length_append, List.length_map] at hlen
        exact ⟨List.eq_nil_of_length_eq_zero (by omega), List.eq_nil_of_length_eq_zero (by omega)⟩
      refine ⟨none, rfl, ?_, by rw [h0.2]; rfl⟩
      rw [h0.1] at e4
      cases e4; rfl
  have hw : readOpt (readAdvance {}) (named "advance" kids).head? = .ok g.width := by
    rw [k1]
    cases hg : g.width with
    | none => rfl
    | some w =>
      simp only [Option.toList_some, List.map_cons, List.head?_cons, readOpt]
      rw [readAdvance_written {} w (h.width w hg)]
      rfl
  have hpre : readPre {} "glyph" ((({ name := "glyph" } : Element).set "name" g.name).set "format" "2".toList).get
      (fun n => named n kids) = .ok { name := g.name, width := g.width, unicode := g.unicode, anchors := g.anchors.map savedAnchor, images := g.images.map savedImage, guidelines := g.guidelines.map savedGuideline, outline := p } := by
    unfold readPre
    simp only [hw, hp, k2, k3, k5, k6, get_set, if_true, Out.bind_ok, Out.ofOption_some, ne_eq, not_true_eq_false, if_false, String.reduceEq]
    rw [mapM'_map_ok (g := id) fun c _ => readUnicode_written c,
      mapM'_map_ok (g := savedAnchor) fun a ha => readAnchor_written a (h.classes a ha),
      mapM'_map_ok (g := savedImage) fun i _ => readImage_written i,
      mapM'_map_ok (g := savedGuideline) fun i _ => readGuideline_written i]
    simp
  refine (congrArg (fun x : R Pre => x >>= fun p => outlineOfGlif mid ((p.outline.map Prod.fst).getD []) >>= fun o =>
    .ok (glifOf pio (fun n => named n kids) p o)) hpre).trans ?_
  rw [Out.bind_ok]
  simp only [hp1, e6, Out.bind_ok, glifOf, hp2, saved]
  have hn : (named "note" kids).head?.bind Element.getText = g.note := by
    rw [k7]
    cases g.note with
    | none => rfl
    | some n => simp [noteXml, Element.getText]
  have hl : (match (named "lib" kids).head? with
      | some e => readLib pio e
      | none => .none) = g.lib := by
    rw [k8]
    have := lib_written pio g.lib h.lib
    cases hx : libXml pio g.lib with
    | none => rw [hx] at this; exact this
    | some e => rw [hx] at this; exact this
  rw [hn]
  congr 2

end GP
