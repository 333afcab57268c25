import Verif.Spec.Rewriting
import Verif.Props.Renaming
import Verif.Props.Reopen
/-!
# C144: saving the files of a font again does not change what it draws
-/
open Fl Fl.Text
namespace GP
namespace Spec
variable {PD D : Type}

/-- A glyph of lines and cubic curves whose contours have no `move` point but at their beginning, whose references have no tabs, and
whose matrices have integers and floats below `2^24` or beyond `2^31`. -/
structure Gentle (g : Glif PD D) : Prop where
  contours : ∀ o, g.outline = some o → ∀ c ∈ o, Cubic c ∧ MoveFirst c
  references : ∀ c ∈ g.components.vec, '\t' ∉ c.base ∧ AllSix NotBetween c.m

end Spec
open Spec Plist
variable {PD D L : Type}

/-! ## Contours -/

theorem rotated_self {α : Type} (l : List α) : Rotated l l := ⟨[], l, rfl, by simp⟩

theorem DrawsAlike.rfl' (c : Contour PD) : DrawsAlike c c := ⟨rfl, rotated_self _⟩

theorem DrawsAlike.trans {c d e : Contour PD} (h : DrawsAlike c d) (h' : DrawsAlike d e) : DrawsAlike c e :=
  ⟨h'.1.trans h.1, rotated_trans h.2 h'.2⟩

theorem SameUnsigned.rfl' (A : Affine) : SameUnsigned A A := ⟨rfl, rfl, rfl, rfl, rfl, rfl⟩

/-- Contours that draw the same draw the same when they are moved. -/
theorem alike_moved {As Bs : List Affine} (h : List.Forall₂ SameUnsigned As Bs) {c c' : Contour PD} (hc : DrawsAlike c c') :
    DrawsAlike (c.map (Point.applyMatrices As)) (c'.map (Point.applyMatrices Bs)) := by
  refine ⟨by rw [openContour_moved, openContour_moved, hc.1], ?_⟩
  have key : ∀ (Cs : List Affine), List.Forall₂ SameUnsigned Cs Bs → ∀ l : List Stroke,
      (l.map (Stroke.moved (images Cs))).map Stroke.unsigned = (l.map Stroke.unsigned).map fun s => (s.moved (images Bs)).unsigned := by
    intro Cs hC l
    rw [List.map_map, List.map_map]
    exact List.map_congr_left fun s _ => (stroke_unsigned hC s).symm
  rw [wantedStrokes_moved, wantedStrokes_moved, key As h, key Bs (List.forall₂_same.2 fun A _ => SameUnsigned.rfl' A)]
  exact rotated_of_map _ hc.2

theorem wantedStrokes_spoken (c : Contour PD) : wantedStrokes (c.map spokenPoint) = wantedStrokes c := by
  have ho : openContour (c.map spokenPoint) = openContour c := by cases c <;> rfl
  have hz : ∀ l m : Contour PD, ((l.map spokenPoint).zip (m.map spokenPoint)).map wantedStroke = (l.zip m).map wantedStroke := by
    intro l m
    rw [List.zip_map, List.map_map]
    rfl
  unfold wantedStrokes
  rw [ho]
  split
  · unfold openPairs; rw [← List.map_tail, hz]
  · unfold closedPairs; rw [← List.map_tail, ← List.map_take, ← List.map_append, hz]

/-- A contour as it comes back. -/
theorem alike_stored {c : Contour PD} (h : MoveFirst c) :
    DrawsAlike c ((stored (c.map spokenPoint)).map unsigned) ∧ MoveFirst ((stored (c.map spokenPoint)).map unsigned) := by
  have hm : MoveFirst (c.map spokenPoint) := moveFirst_types (by rw [List.map_map]; rfl) h
  obtain ⟨⟨h1, h2⟩, h3⟩ := stored_draws hm
  refine ⟨⟨?_, ?_⟩, moveFirst_types (by rw [List.map_map]; rfl) h3⟩
  · rw [openContour_unsigned, h1]; cases c <;> rfl
  · rw [wantedStrokes_unsigned, List.map_map]
    have : Stroke.unsigned ∘ Stroke.unsigned = Stroke.unsigned := by
      funext s
      cases s <;> simp only [Function.comp_apply, Stroke.unsigned, Stroke.unsigned.f, Flt.normZero_idem]
    rw [this]
    rw [wantedStrokes_spoken] at h2
    exact rotated_of_map _ h2

theorem cubicContour_not_lone {gc : GlifContour} {c : Contour PD} (h : cubicContour gc = .ok c) : loneMove c = false := by
  unfold cubicContour at h
  obtain ⟨st, -, h⟩ := bind_eq_ok.1 h
  simp only at h
  split at h
  · split at h
    · cases h; rfl
    · rename_i hp
      cases h
      exact beq_eq_false_iff_ne.2 hp
  · rename_i hc
    rw [Out.ok.injEq] at h
    rw [← h]
    unfold loneMove
    split
    · rename_i p hp
      exact absurd hp (hc p)
    · rfl

/-- No contour that was read is a lone `move` point. -/
theorem read_not_lone {mid : IOF → IOF → IOF} {pio : PlistIO D} {ped : Pedantry} {root : Element} {g : Glif PD D}
    (h : readGlif mid pio ped root = .ok g) (hq : ∀ o, g.outline = some o → ∀ c ∈ o, Cubic c) : ∀ c ∈ g.outline.getD [], loneMove c = false := by
  have hall := C08_file mid pio ped root g h
  have hq' : ∀ c ∈ g.outline.getD [], Cubic c := by
    cases ho : g.outline with
    | none => exact fun c hc => (nomatch hc)
    | some o => exact hq o ho
  intro c hc
  obtain ⟨e, -, hne, gc, hr, hg⟩ := forall₂_mem_right hall hc
  cases gc with
  | nil => cases hg
  | cons y gc =>
    have hp := hq' c hc
    unfold contourOfGlif at hg
    simp only at hg
    split at hg
    · exact cubicContour_not_lone hg
    · exact cubicContour_not_lone hg
    · exact cubicContour_not_lone hg
    · rename_i hy
      cases hg
      obtain ⟨p, hp', ht⟩ := quadratic_has (PD := PD) mid y gc hy
      rcases hp p hp' with e | e | e <;> rw [ht] at e <;> cases e
    · rename_i hy
      rcases (contour_read_file hr (by simp)).2 y List.mem_cons_self with e | e | e | e | e <;> rw [hy] at e <;> cases e
    · cases hg; exact absurd rfl hne

/-! ## Files -/

/-- References to the same glyph in the same file, moved alike. -/
def RefAlike (c c' : GlifComponent) : Prop := c'.base = c.base ∧ c'.filename = c.filename ∧ SameUnsigned c.m.affine c'.m.affine

/-- As far as flattening goes, the glyphs are alike. -/
structure GlyphAlike (g g' : Glif PD D) : Prop where
  outline : List.Forall₂ DrawsAlike (g.outline.getD []) (g'.outline.getD [])
  references : List.Forall₂ RefAlike g.components.vec g'.components.vec
  uniques : g'.components.uniques = g.components.uniques

theorem GlyphAlike.rfl' (g : Glif PD D) : GlyphAlike g g :=
  ⟨List.forall₂_same.2 fun c _ => DrawsAlike.rfl' c, List.forall₂_same.2 fun _ _ => ⟨rfl, rfl, .rfl' _⟩, rfl⟩

/-- Each file is the same, or holds a glyph that is alike. -/
def FilesAlike (PD : Type) (mid : IOF → IOF → IOF) (pio : PlistIO D) (files files' : Files) : Prop :=
  ∀ f, files' f = files f ∨ ∃ g g' : Glif PD D, Holds PD mid pio files f g ∧ Holds PD mid pio files' f g' ∧ GlyphAlike g g'

theorem OutRel.same {α : Type} {r : α → α → Prop} (hr : ∀ a, r a a) : ∀ x : R α, OutRel r x x
  | .err e => .err e
  | .panic => .panic
  | .ok a => .ok (hr a)

section
variable {mid : IOF → IOF → IOF} {pio : PlistIO D} {files files' : Files}

theorem located_alike {f : Path} {cs cs' : List GlifComponent} (h : List.Forall₂ RefAlike cs cs') :
    List.Forall₂ RefAlike (cs.map (located f)) (cs'.map (located f)) := by
  rw [List.forall₂_map_left_iff, List.forall₂_map_right_iff]
  refine h.imp fun c c' hc => ⟨hc.1, ?_, hc.2.2⟩
  show some (componentFile f c'.base) = some (componentFile f c.base)
  rw [hc.1]

/-- What references resolve to. -/
def CompAlike (x y : Component PD D) : Prop :=
  y.glif.name = x.glif.name ∧ GlyphAlike x.glif y.glif ∧ SameUnsigned x.matrix y.matrix

theorem toComponent_alike (hF : FilesAlike PD mid pio files files') {c c' : GlifComponent} (h : RefAlike c c') :
    OutRel (CompAlike (PD := PD) (D := D)) (c.toComponent mid pio files) (c'.toComponent mid pio files') := by
  obtain ⟨hb, hf, hm⟩ := h
  cases hc : c.filename with
  | none =>
    unfold GlifComponent.toComponent
    rw [hf, hc]
    exact .err _
  | some f =>
    rcases hF f with he | ⟨g, g', hg, hg', ha⟩
    · unfold GlifComponent.toComponent
      simp only [hf, hc, Out.ofOption_some, Out.bind_ok, he]
      cases files f with
      | none => exact .err _
      | some x =>
        cases x with
        | none => exact .err _
        | some root =>
          simp only [Out.ofOption_some, Out.bind_ok]
          match hr : (readGlif mid pio {} root : R (Glif PD D)) with
          | .err e => exact .err e
          | .panic => exact .panic
          | .ok g =>
            have := GlyphAlike.rfl' (resolved c f g).glif
            exact .ok ⟨hb, ⟨this.outline, this.references, this.uniques⟩, hm⟩
    · rw [toComponent_ok.2 ⟨f, g, hc, hg, rfl⟩, toComponent_ok.2 ⟨f, g', hf.trans hc, hg', rfl⟩]
      exact .ok ⟨hb, ⟨ha.outline, located_alike ha.references, ha.uniques⟩, hm⟩

/-- Trees of alike nodes. -/
inductive TreeAlike : Tree (Component PD D) → Tree (Component PD D) → Prop
  | mk {t u : Tree (Component PD D)} (data : CompAlike t.data u.data) (children : List.Forall₂ TreeAlike t.children u.children) : TreeAlike t u

theorem runRel_bind_out {α β γ δ : Type} {r : α → β → Prop} {q : γ → δ → Prop} {x : R α} {y : R β} {f : α → Run γ} {g : β → Run δ}
    (h : OutRel r x y) (hfg : ∀ a b, r a b → RunRel q (f a) (g b)) : RunRel q (Run.bind (some x) f) (Run.bind (some y) g) := by
  cases h with
  | err e => exact .err e
  | panic => exact .panic
  | ok h => exact hfg _ _ h

theorem buildTree_alike (hF : FilesAlike PD mid pio files files') (n : Nat) : ∀ (u : List Str) (x y : Component PD D), CompAlike x y →
    RunRel TreeAlike (buildTree (fun c => c.toComponent mid pio files) n u x) (buildTree (fun c => c.toComponent mid pio files') n u y) := by
  induction n with
  | zero => exact fun u x y _ => .endless
  | succ n ih =>
    intro u x y hxy
    rw [buildTree_succ, buildTree_succ]
    refine RunRel.bind (RunRel.mapM (q := TreeAlike) hxy.2.1.references fun k k' hk => ?_) fun ts us htu => .ok ⟨hxy, htu⟩
    unfold buildKid
    rw [hk.1]
    split
    · exact .err _
    · exact runRel_bind_out (toComponent_alike hF hk) fun a b hab => ih _ a b hab

theorem visited_alike {t u : Tree (Component PD D)} (h : TreeAlike t u) :
    List.Forall₂ (fun x y : List Affine × Component PD D => List.Forall₂ SameUnsigned x.1 y.1 ∧ CompAlike x.2 y.2) (visited t) (visited u) := by
  obtain ⟨hd, hc⟩ := h
  unfold visited
  refine .cons ⟨.nil, hd⟩ ?_
  rw [List.forall₂_map_left_iff, List.forall₂_map_right_iff, List.forall₂_reverse_iff]
  refine hc.imp ?_
  rintro a b ⟨hab, -⟩
  exact ⟨.cons hd.2.2 .nil, hab⟩

theorem flatMap_rel {α β γ δ : Type} {r : α → β → Prop} {q : γ → δ → Prop} {f : α → List γ} {g : β → List δ} {l : List α} {m : List β}
    (h : List.Forall₂ r l m) (hfg : ∀ a b, r a b → List.Forall₂ q (f a) (g b)) : List.Forall₂ q (l.flatMap f) (m.flatMap g) := by
  induction h with
  | nil => exact .nil
  | cons hab _ ih =>
    rw [List.flatMap_cons, List.flatMap_cons]
    exact List.rel_append (hfg _ _ hab) ih

theorem flattenForest_alike {ts us : List (Tree (Component PD D))} (h : List.Forall₂ TreeAlike ts us) :
    List.Forall₂ DrawsAlike (flattenForest ts).1 (flattenForest us).1 ∧
      (flattenForest us).2.map (·.name) = (flattenForest ts).2.map (·.name) := by
  constructor
  · rw [flattenForest_fst, flattenForest_fst]
    refine flatMap_rel (flatMap_rel h fun t u htu => visited_alike htu) fun x y hxy => ?_
    unfold contribution
    rw [List.forall₂_map_left_iff, List.forall₂_map_right_iff]
    exact hxy.2.2.1.outline.imp fun c c' hc => alike_moved (.cons hxy.2.2.2 hxy.1) hc
  · unfold flattenForest
    have : ∀ {ts us : List (Tree (Component PD D))}, List.Forall₂ TreeAlike ts us → ∀ (s s' : Outline PD × List ComponentRect),
        s'.2.map (·.name) = s.2.map (·.name) →
        (us.foldl (fun s t => ((flattenTree t s.1).2, s.2 ++ [{ rect := (flattenTree t s.1).1, name := t.data.glif.name }])) s').2.map (·.name) =
          (ts.foldl (fun s t => ((flattenTree t s.1).2, s.2 ++ [{ rect := (flattenTree t s.1).1, name := t.data.glif.name }])) s).2.map (·.name) := by
      intro ts us hl
      induction hl with
      | nil => exact fun s s' h => h
      | cons hab _ ih =>
        intro s s' h
        rw [List.foldl_cons, List.foldl_cons]
        refine ih _ _ ?_
        obtain ⟨hd, -⟩ := hab
        simp [h, hd.1]
    exact this h ([], []) ([], []) rfl

/-- Alike glyphs are flattened alike. -/
theorem flattened_alike (hF : FilesAlike PD mid pio files files') {g g' : Glif PD D} (h : GlyphAlike g g') (n : Nat) :
    FlattenedAlike (g.flattened (fun c => c.toComponent mid pio files) n) (g'.flattened (fun c => c.toComponent mid pio files') n) := by
  unfold Glif.flattened
  simp only [forest_eq]
  have key := RunRel.mapM (q := TreeAlike) h.references fun c c' hc => by
    have := runRel_bind_out (q := TreeAlike) (toComponent_alike hF hc) fun a b hab => buildTree_alike hF n g.components.uniques a b hab
    exact this
  rw [h.uniques]
  generalize hx : Run.mapM (buildRoot (fun c => c.toComponent mid pio files) n g.components.uniques) g.components.vec = x
  generalize hy : Run.mapM (buildRoot (fun c => c.toComponent mid pio files') n g.components.uniques) g'.components.vec = y
  have key : RunRel (List.Forall₂ TreeAlike) x y := by rw [← hx, ← hy]; exact key
  cases key with
  | endless => exact .endless
  | err e => exact .err e
  | panic => exact .panic
  | @ok ts us h =>
    obtain ⟨h1, h2⟩ := flattenForest_alike h
    exact .ok rfl rfl h1 h2

end

/-! ## One save -/

theorem SameUnsigned.trans {A B C : Affine} (h : SameUnsigned A B) (h' : SameUnsigned B C) : SameUnsigned A C := by
  obtain ⟨h1, h2, h3, h4, h5, h6⟩ := h
  obtain ⟨k1, k2, k3, k4, k5, k6⟩ := h'
  exact ⟨h1.trans k1, h2.trans k2, h3.trans k3, h4.trans k4, h5.trans k5, h6.trans k6⟩

theorem forall₂_chain {α : Type} {r : α → α → Prop} (hr : ∀ a b c, r a b → r b c → r a c) {l m n : List α} (h : List.Forall₂ r l m)
    (h' : List.Forall₂ r m n) : List.Forall₂ r l n := by
  induction h generalizing n with
  | nil => exact h'
  | cons hab _ ih => cases h' with | cons hbc ht => exact .cons (hr _ _ _ hab hbc) (ih ht)

theorem GlyphAlike.trans {g g' g'' : Glif PD D} (h : GlyphAlike g g') (h' : GlyphAlike g' g'') : GlyphAlike g g'' :=
  ⟨forall₂_chain (r := DrawsAlike) (fun _ _ _ a b => DrawsAlike.trans a b) h.outline h'.outline,
    forall₂_chain (r := RefAlike) (fun _ _ _ a b => ⟨b.1.trans a.1, b.2.1.trans a.2.1, a.2.2.trans b.2.2⟩) h.references h'.references,
    h'.uniques.trans h.uniques⟩

theorem notBetween_same {x y : IOF} (h : SameNumber x y) (hx : NotBetween x) : NotBetween y := by
  intro f hf hfin
  cases x with
  | int i hi => rw [h.2 i hi rfl] at hf; cases hf
  | float f0 =>
    have e : f = f0.normZero := by have := h.1; rw [hf] at this; exact this
    rw [e, isFinite_normZero] at hfin
    rw [e, toRat_normZero]
    exact hx f0 rfl hfin

theorem outline_alike {g g' : Glif PD D} (h : Resaved (spoken g) g') (hl : ∀ c ∈ g.outline.getD [], loneMove c = false)
    (hm : ∀ c ∈ g.outline.getD [], MoveFirst c) :
    List.Forall₂ DrawsAlike (g.outline.getD []) (g'.outline.getD []) ∧ ∀ c ∈ g'.outline.getD [], MoveFirst c := by
  have e : (spoken g).outline.getD [] = (g.outline.getD []).map fun c => c.map spokenPoint := by
    unfold spoken; cases g.outline <;> rfl
  have e2 : g'.outline.getD [] = (g.outline.getD []).map fun c => (stored (c.map spokenPoint)).map unsigned := by
    rw [h.outline, e]
    unfold resavedOutline
    rw [List.filter_eq_self.2, List.map_map]
    · rfl
    · intro c hc
      obtain ⟨k, hk, rfl⟩ := List.mem_map.1 hc
      rw [loneMove_spoken, hl k hk]
      rfl
  rw [e2]
  constructor
  · rw [List.forall₂_map_right_iff]
    exact List.forall₂_same.2 fun c hc => (alike_stored (hm c hc)).1
  · intro c hc
    obtain ⟨k, hk, rfl⟩ := List.mem_map.1 hc
    exact (alike_stored (hm k hk)).2

/-- What comes back of a glyph that was read is alike. -/
theorem resaved_alike (mid : IOF → IOF → IOF) {pio : PlistIO D} {root : Element} {g g' : Glif PD D} {l : Lib D}
    (hrd : readGlif mid pio {} root = .ok g) (hg : Gentle g) (hres : Resaved (spoken { g with lib := l }) g') : GlyphAlike g g' ∧ Gentle g' := by
  have hq : ∀ o, g.outline = some o → ∀ c ∈ o, Cubic c := fun o ho c hc => (hg.contours o ho c hc).1
  have hsays := C85_says mid _ {} root g hrd
  have hmv : ∀ c ∈ g.outline.getD [], MoveFirst c := by
    cases ho : g.outline with
    | none => exact fun c hc => (nomatch hc)
    | some o => exact fun c hc => (hg.contours o ho c hc).2
  have hnl := read_not_lone hrd hq
  obtain ⟨h1, h2⟩ := outline_alike hres hnl hmv
  have hnone : ∀ c ∈ g.components.vec, c.filename = none := by
    intro c hc
    obtain ⟨e, -, he⟩ := forall₂_mem_right hsays.components hc
    exact he.2.2.2
  have hcomp : List.Forall₂ (fun c d : GlifComponent => SameComponent { c with base := untab c.base, identifier := c.identifier.map untab } d)
      g.components.vec g'.components.vec := List.forall₂_map_left_iff.1 hres.components
  refine ⟨⟨h1, ?_, ?_⟩, ?_, ?_⟩
  · have : ∀ (cs ds : List GlifComponent), (∀ c ∈ cs, c ∈ g.components.vec) →
        List.Forall₂ (fun c d : GlifComponent => SameComponent { c with base := untab c.base, identifier := c.identifier.map untab } d) cs ds →
        List.Forall₂ RefAlike cs ds := by
      intro cs ds hm hf
      induction hf with
      | nil => exact .nil
      | @cons c d _ _ hcd _ ih =>
        have hc := hm c (by simp)
        refine .cons ⟨hcd.1.trans (untab_eq (hg.references c hc).1), hcd.2.2.1.trans (hnone c hc).symm, ?_⟩ (ih fun c hc => hm c (by simp [hc]))
        exact matrix_unsigned hcd.2.2.2 (hg.references c hc).2 (affine_represents _) (affine_represents _)
    exact this _ _ (fun c hc => hc) hcomp
  · rw [hres.componentRoot.2, hsays.owner.2]
  · intro o ho c hc
    refine ⟨resaved_cubic hres hq o ho c hc, h2 c ?_⟩
    rw [ho]; exact hc
  · intro d hd
    obtain ⟨c, hc, hcd⟩ := forall₂_mem_right hcomp hd
    refine ⟨by rw [hcd.1]; exact untab_no_tab _, ?_⟩
    obtain ⟨k1, k2, k3, k4, k5, k6⟩ := hcd.2.2.2
    obtain ⟨m1, m2, m3, m4, m5, m6⟩ := (hg.references c hc).2
    exact ⟨notBetween_same k1 m1, notBetween_same k2 m2, notBetween_same k3 m3, notBetween_same k4 m4, notBetween_same k5 m5, notBetween_same k6 m6⟩

/-- What is read from a file that was saved. -/
theorem saved_alike (mid : IOF → IOF → IOF) {lio : LeafIO L} (hl : LeafLaws lio) (lay lay' : XmlText.Layout) (hy : Lays lay) (hy' : Lays lay')
    {t : Str} {g : Glif PD (Dict L)} (h : readText mid (io lio lay) (XmlText.io lay') {} t = .ok g) (hg : Gentle g) :
    ∃ s, ∃ g' : Glif PD (Dict L), writeText (io lio lay) (XmlText.io lay') g = .ok s ∧ readText mid (io lio lay) (XmlText.io lay') {} s = .ok g' ∧
      GlyphAlike g g' ∧ Gentle g' := by
  obtain ⟨g', ⟨s, hw, hr⟩, hcase⟩ := C142_partial mid hl lay lay' hy hy' {} t g h fun o ho c hc => (hg.contours o ho c hc).1
  obtain ⟨root, -, hrd⟩ := read_document h
  refine ⟨s, g', hw, hr, ?_⟩
  rcases hcase with ⟨-, h⟩ | ⟨d, d', -, -, -, h⟩
  · exact resaved_alike mid (l := g.lib) hrd hg h
  · exact resaved_alike mid hrd hg h

/-- A glyph with the files of its references. -/
def atFile (f : Path) (g : Glif PD D) : Glif PD D :=
  { g with filename := some f, components := { g.components with vec := g.components.vec.map (located f) } }

theorem writeText_atFile (pio : PlistIO D) (xml : XmlIO) (f : Path) (g : Glif PD D) : writeText pio xml (atFile f g) = writeText pio xml g := by
  have : (atFile f g).components.vec.map (fun c => (componentXml c).node) = g.components.vec.map fun c => (componentXml c).node := by
    unfold atFile
    rw [List.map_map]
    rfl
  unfold writeText glifXml
  simp only [this]
  rfl

theorem gentle_atFile {f : Path} {g : Glif PD D} : Gentle (atFile f g) ↔ Gentle g := by
  constructor
  · intro h
    refine ⟨h.contours, fun c hc => ?_⟩
    have := h.references (located f c) (List.mem_map.2 ⟨c, hc, rfl⟩)
    exact this
  · intro h
    refine ⟨h.contours, fun c hc => ?_⟩
    obtain ⟨k, hk, rfl⟩ := List.mem_map.1 hc
    exact h.references k hk

theorem GlyphAlike.atFile {f : Path} {g g' : Glif PD D} (h : GlyphAlike g g') : GlyphAlike (atFile f g) (atFile f g') :=
  ⟨h.outline, located_alike h.references, h.uniques⟩

section
variable {mid : IOF → IOF → IOF} {pio : PlistIO D} {xml : XmlIO} {d d' : Disk}

theorem readFile_atFile {f : Path} {g : Glif PD D} (h : readFile mid pio xml d {} f = .ok g) :
    ∃ g0, Holds PD mid pio (d.files xml) f g0 ∧ g = atFile f g0 := by
  obtain ⟨g0, hg0, -⟩ := readFile_holds h
  refine ⟨g0, hg0, ?_⟩
  rw [readFile_of_holds hg0] at h
  exact (Out.ok.inj h).symm

theorem holds_text {f : Path} {g : Glif PD D} : Holds PD mid pio (d.files xml) f g ↔ ∃ t, d.read f = some t ∧ readText mid pio xml {} t = .ok g := by
  unfold Holds Disk.files readText
  cases d.read f with
  | none => simp
  | some t => cases hp : xml.parse t <;> simp [hp, Out.ofOption]

theorem FilesAlike.trans {F F' F'' : Files} (h : FilesAlike PD mid pio F F') (h' : FilesAlike PD mid pio F' F'') : FilesAlike PD mid pio F F'' := by
  intro f
  rcases h f with e | ⟨g, g', hg, hg', ha⟩
  · rcases h' f with e' | ⟨g, g', hg, hg', ha⟩
    · exact .inl (e'.trans e)
    · refine .inr ⟨g, g', ?_, hg', ha⟩
      obtain ⟨x, hx, hr⟩ := hg
      exact ⟨x, e ▸ hx, hr⟩
  · rcases h' f with e' | ⟨k, k', hk, hk', hka⟩
    · refine .inr ⟨g, g', hg, ?_, ha⟩
      obtain ⟨x, hx, hr⟩ := hg'
      exact ⟨x, e' ▸ hx, hr⟩
    · cases holds_unique hg' hk
      exact .inr ⟨g, k', hg, hk', ha.trans hka⟩

/-- Reading and flattening files that are alike. -/
theorem readFile_alike (h : FilesAlike PD mid pio (d.files xml) (d'.files xml)) (f : Path) :
    OutRel (fun g g' : Glif PD D => GlyphAlike g g') (readFile mid pio xml d {} f) (readFile mid pio xml d' {} f) := by
  rcases h f with e | ⟨g, g', hg, hg', ha⟩
  · unfold readFile readFromFilename
    rw [e]
    exact OutRel.same GlyphAlike.rfl' _
  · rw [readFile_of_holds hg, readFile_of_holds hg']
    exact .ok ha.atFile

end

/-- A file is replaced by one that is alike. -/
theorem write_alike {mid : IOF → IOF → IOF} {pio : PlistIO D} {xml : XmlIO} {d : Disk} {p : Path} {t s : Str} {g g' : Glif PD D}
    (ht : d.read p = some t) (hrt : readText mid pio xml {} t = .ok g) (hr' : readText mid pio xml {} s = .ok g') (ha : GlyphAlike g g')
    (hg' : Gentle g') :
    FilesAlike PD mid pio (d.files xml) ((d.write p s).files xml) ∧
      ∀ f, ∀ k : Glif PD D, Holds PD mid pio (d.files xml) f k → Gentle k → ∃ k', Holds PD mid pio ((d.write p s).files xml) f k' ∧ Gentle k' := by
  have hin : ∀ f, d.place f = d.place p → (d.write p s).read f = some s := fun f hf => by
    show (if d.place f = d.place p then some s else d.text (d.place f)) = some s
    rw [if_pos hf]
  have hout : ∀ f, d.place f ≠ d.place p → (d.write p s).read f = d.read f := fun f hf => by
    show (if d.place f = d.place p then some s else d.text (d.place f)) = d.read f
    rw [if_neg hf]; rfl
  refine ⟨fun f => ?_, fun f k hk hkg => ?_⟩
  · by_cases hf : d.place f = d.place p
    · refine .inr ⟨g, g', holds_text.2 ⟨t, ?_, hrt⟩, holds_text.2 ⟨s, hin f hf, hr'⟩, ha⟩
      rw [← ht]; unfold Disk.read; rw [hf]
    · refine .inl ?_
      unfold Disk.files
      rw [hout f hf]
  · by_cases hf : d.place f = d.place p
    · exact ⟨g', holds_text.2 ⟨s, hin f hf, hr'⟩, hg'⟩
    · obtain ⟨u, hu, hur⟩ := holds_text.1 hk
      exact ⟨k, holds_text.2 ⟨u, (hout f hf).trans hu, hur⟩, hkg⟩

theorem step_alike (mid : IOF → IOF → IOF) {lio : LeafIO L} (hl : LeafLaws lio) (lay lay' : XmlText.Layout) (hy : Lays lay) (hy' : Lays lay')
    {d : Disk} {p : Path} {g : Glif PD (Dict L)} (hr : readFile mid (io lio lay) (XmlText.io lay') d {} p = .ok g) (hg : Gentle g) :
    ∃ s, writeText (io lio lay) (XmlText.io lay') g = .ok s ∧
      FilesAlike PD mid (io lio lay) (d.files (XmlText.io lay')) ((d.write p s).files (XmlText.io lay')) ∧
      ∀ f, ∀ k : Glif PD (Dict L), Holds PD mid (io lio lay) (d.files (XmlText.io lay')) f k → Gentle k →
        ∃ k', Holds PD mid (io lio lay) ((d.write p s).files (XmlText.io lay')) f k' ∧ Gentle k' := by
  obtain ⟨g0, h0, rfl⟩ := readFile_atFile hr
  obtain ⟨t, ht, hrt⟩ := holds_text.1 h0
  obtain ⟨s, g', hw, hr', ha, hg'⟩ := saved_alike mid hl lay lay' hy hy' hrt (gentle_atFile.1 hg)
  exact ⟨s, by rw [writeText_atFile]; exact hw, write_alike ht hrt hr' ha hg'⟩

/-- What is read and flattened, of files that are alike. -/
theorem outcome_alike {mid : IOF → IOF → IOF} {pio : PlistIO D} {xml : XmlIO} {d d' : Disk}
    (hF : FilesAlike PD mid pio (d.files xml) (d'.files xml)) (f : Path) :
    OutRel (fun g g' : Glif PD D => List.Forall₂ DrawsAlike (g.outline.getD []) (g'.outline.getD []) ∧
        ∀ n, FlattenedAlike (g.flattened (fun c => c.toComponent mid pio (d.files xml)) n)
          (g'.flattened (fun c => c.toComponent mid pio (d'.files xml)) n))
      (readFile mid pio xml d {} f) (readFile mid pio xml d' {} f) := by
  have := readFile_alike hF f
  generalize readFile mid pio xml d {} f = x at this
  generalize readFile mid pio xml d' {} f = y at this
  cases this with
  | err e => exact .err e
  | panic => exact .panic
  | ok h => exact .ok ⟨h.outline, fun n => flattened_alike hF h n⟩

/-! ## Theorems -/

/-- **C144.** Files of a font are opened and saved, in any order and as often as one likes.  Then every file is read with the same
outcome as before, the contours draw the same, and so do those of the flattened glyph. -/
theorem C144_alike (mid : IOF → IOF → IOF) {lio : LeafIO L} (hl : LeafLaws lio) (lay lay' : XmlText.Layout) (hy : Lays lay) (hy' : Lays lay')
    {d d' : Disk} (h : Relation.ReflTransGen (OpenedAndSaved (PD := PD) mid (io lio lay) (XmlText.io lay') Gentle) d d') (f : Path) :
    OutRel (fun g g' : Glif PD (Dict L) => List.Forall₂ DrawsAlike (g.outline.getD []) (g'.outline.getD []) ∧
        ∀ n, FlattenedAlike (g.flattened (fun c => c.toComponent mid (io lio lay) (d.files (XmlText.io lay'))) n)
          (g'.flattened (fun c => c.toComponent mid (io lio lay) (d'.files (XmlText.io lay'))) n))
      (readFile mid (io lio lay) (XmlText.io lay') d {} f) (readFile mid (io lio lay) (XmlText.io lay') d' {} f) := by
  have hF : FilesAlike PD mid (io lio lay) (d.files (XmlText.io lay')) (d'.files (XmlText.io lay')) := by
    induction h with
    | refl => exact fun f => .inl rfl
    | tail _ hs ih =>
      obtain ⟨p, g, hr, hg, hw⟩ := hs
      obtain ⟨s, hs, hF, -⟩ := step_alike mid hl lay lay' hy hy' hr hg
      refine ih.trans ?_
      unfold writeFile at hw
      rw [hs, Out.bind_ok] at hw
      split at hw
      · cases hw; exact hF
      · cases hw
  exact outcome_alike hF f

/-- **C144.** A glyph of this kind can be saved to a file that can be written, and glyphs of this kind stay so. -/
theorem C144_possible (mid : IOF → IOF → IOF) {lio : LeafIO L} (hl : LeafLaws lio) (lay lay' : XmlText.Layout) (hy : Lays lay) (hy' : Lays lay')
    {d : Disk} {p : Path} {g : Glif PD (Dict L)} (hr : readFile mid (io lio lay) (XmlText.io lay') d {} p = .ok g) (hg : Gentle g)
    (hp : d.writable p = true) :
    ∃ d', writeFile (io lio lay) (XmlText.io lay') g p d = .ok d' ∧ d'.writable = d.writable ∧
      ∀ f, ∀ k : Glif PD (Dict L), readFile mid (io lio lay) (XmlText.io lay') d {} f = .ok k → Gentle k →
        ∃ k' : Glif PD (Dict L), readFile mid (io lio lay) (XmlText.io lay') d' {} f = .ok k' ∧ Gentle k' := by
  obtain ⟨s, hs, -, hk⟩ := step_alike mid hl lay lay' hy hy' hr hg
  refine ⟨d.write p s, ?_, rfl, fun f k hf hkg => ?_⟩
  · unfold writeFile
    rw [hs, Out.bind_ok, if_pos hp]
  · obtain ⟨k0, hk0, rfl⟩ := readFile_atFile hf
    obtain ⟨k', hk', hg'⟩ := hk f k0 hk0 (gentle_atFile.1 hkg)
    exact ⟨_, readFile_of_holds hk', gentle_atFile.2 hg'⟩

/-! ## Samples -/

/-- A file with a contour that starts with a curve, and a reference. -/
def Sample.upper : Str := "<glyph format='2' name='A'><outline><contour><point x='0' y='0' type='curve'/><point x='5' y='5' type='line'/><point x='1' y='1'/><point x='2' y='1'/></contour><component base='a' xScale='2' xOffset='-0.0' yScale='1.5' yOffset='7'/></outline></glyph>".toList

/-- The file it refers to. -/
def Sample.lower : Str := "<glyph format='2' name='a'><outline><contour><point x='0' y='0' type='move'/><point x='3' y='-0' type='line'/></contour></outline></glyph>".toList

/-- Both files in a directory. -/
def Sample.twoFiles : Disk where
  place := id
  text p := if p = Path.ofStr "font/A_.glif".toList then some Sample.upper else if p = Path.ofStr "font/a.glif".toList then some Sample.lower else none
  writable _ := true

/-- A coefficient that is an integer or a small float. -/
def Sample.small : IOF → Bool
  | .int _ _ => true
  | .float f => decide (|f.toRat| < 2 ^ 24)

theorem Sample.small_notBetween {x : IOF} (h : Sample.small x = true) : NotBetween x := by
  rintro f rfl -
  exact .inl (of_decide_eq_true h)

/-- The glyph of the first is of this kind, and can be saved; the other is flattened into it. -/
theorem Sample.twoFiles_saved : ∃ d', OpenedAndSaved (PD := Unit) (fun a _ => a) (io Sample.dates64 .indented) (XmlText.io .indented) Gentle Sample.twoFiles d' ∧
    ∃ g : Glif Unit _, readFile (fun a _ => a) (io Sample.dates64 .indented) (XmlText.io .indented) Sample.twoFiles {}
        (Path.ofStr "font/A_.glif".toList) = .ok g ∧
      ∃ f rects, g.flattened (fun c => c.toComponent (fun a _ => a) (io Sample.dates64 .indented) (Sample.twoFiles.files (XmlText.io .indented))) 5 =
        some (.ok (f, rects)) ∧ (f.outline.getD []).map List.length = [2] := by
  have hok : (match readFile (PD := Unit) (fun a _ => a) (io Sample.dates64 .indented) (XmlText.io .indented) Sample.twoFiles {}
        (Path.ofStr "font/A_.glif".toList) with
      | .ok g => some (g.outline.map fun o => o.map fun c => c.map (·.ptype), g.components.vec.map fun c => (c.base,
            [c.m.xScale, c.m.xyScale, c.m.yxScale, c.m.yScale, c.m.xOffset, c.m.yOffset].map Sample.small))
      | _ => none) = some (some [[.curve, .line]], [("a".toList, [true, true, true, true, true, true])]) := by decide +kernel
  have hfl : (match readFile (PD := Unit) (fun a _ => a) (io Sample.dates64 .indented) (XmlText.io .indented) Sample.twoFiles {}
        (Path.ofStr "font/A_.glif".toList) with
      | .ok g =>
        match g.flattened (fun c => c.toComponent (fun a _ => a) (io Sample.dates64 .indented) (Sample.twoFiles.files (XmlText.io .indented))) 5 with
        | some (.ok (f, _)) => some ((f.outline.getD []).map List.length)
        | _ => none
      | _ => none) = some [2] := by decide +kernel
  match hr : readFile (PD := Unit) (fun a _ => a) (io Sample.dates64 .indented) (XmlText.io .indented) Sample.twoFiles {}
      (Path.ofStr "font/A_.glif".toList) with
  | .err _ => rw [hr] at hok; cases hok
  | .panic => rw [hr] at hok; cases hok
  | .ok g =>
    rw [hr] at hok hfl
    simp only [Option.some.injEq, Prod.mk.injEq] at hok
    obtain ⟨h1, h2⟩ := hok
    have hg : Gentle g := by
      refine ⟨fun o ho c hc => ?_, fun c hc => ?_⟩
      · rw [ho, Option.map_some, Option.some.injEq] at h1
        have : c.map (·.ptype) ∈ o.map fun c => c.map (·.ptype) := List.mem_map.2 ⟨c, hc, rfl⟩
        rw [h1, List.mem_singleton] at this
        constructor
        · intro p hp
          have hp : p.ptype ∈ c.map (·.ptype) := List.mem_map.2 ⟨p, hp, rfl⟩
          rw [this] at hp
          simp only [List.mem_cons, List.not_mem_nil, or_false] at hp
          exact .inr hp.symm
        · intro p hp
          have hp : p.ptype ∈ c.tail.map (·.ptype) := List.mem_map.2 ⟨p, hp, rfl⟩
          rw [List.map_tail, this, List.tail_cons, List.mem_singleton] at hp
          rw [hp]; decide
      · have := List.mem_map_of_mem (f := fun c : GlifComponent => (c.base,
            [c.m.xScale, c.m.xyScale, c.m.yxScale, c.m.yScale, c.m.xOffset, c.m.yOffset].map Sample.small)) hc
        rw [h2, List.mem_singleton, Prod.mk.injEq] at this
        obtain ⟨hb, hm⟩ := this
        simp only [List.map_cons, List.map_nil, List.cons.injEq, and_true] at hm
        obtain ⟨m1, m2, m3, m4, m5, m6⟩ := hm
        exact ⟨by rw [hb]; decide, Sample.small_notBetween m1, Sample.small_notBetween m2, Sample.small_notBetween m3, Sample.small_notBetween m4,
          Sample.small_notBetween m5, Sample.small_notBetween m6⟩
    obtain ⟨d', hd', -⟩ := C144_possible (fun a _ => a) dates_laws .indented .indented lays_indented lays_indented hr hg rfl
    refine ⟨d', ⟨_, g, hr, hg, hd'⟩, g, rfl, ?_⟩
    simp only [] at hfl
    split at hfl
    · rename_i f rects hf
      exact ⟨f, rects, hf, Option.some.inj hfl⟩
    · cases hfl

/-- A file with a reference with a tab... -/
def Sample.tabbed : Str := "<glyph format='2' name='A'><outline><component base='a&#9;b'/></outline></glyph>".toList

/-- ... and the file it refers to. -/
def Sample.tabbedFiles : Disk where
  place := id
  text p := if p = Path.ofStr "font/A_.glif".toList then some Sample.tabbed else if p = Path.ofStr "font/a\tb.glif".toList then some Sample.lower else none
  writable _ := true

/-- The file of the sample, saved. -/
def Sample.tabbedSaved : R Disk := do
  let g ← readFile (PD := Unit) (fun a _ => a) (io Sample.dates64 .indented) (XmlText.io .indented) Sample.tabbedFiles {} (Path.ofStr "font/A_.glif".toList)
  writeFile (io Sample.dates64 .indented) (XmlText.io .indented) g (Path.ofStr "font/A_.glif".toList) Sample.tabbedFiles

/-- What its glyph is flattened to: the points of each contour, if there is a result. -/
def Sample.flatPoints (d : Disk) : Option (Option (List Nat)) :=
  match readFile (PD := Unit) (fun a _ => a) (io Sample.dates64 .indented) (XmlText.io .indented) d {} (Path.ofStr "font/A_.glif".toList) with
  | .ok g =>
    match g.flattened (fun c => c.toComponent (fun a _ => a) (io Sample.dates64 .indented) (d.files (XmlText.io .indented))) 5 with
    | some (.ok (f, _)) => some (some ((f.outline.getD []).map List.length))
    | _ => some none
  | _ => none

/-- **C144.** It does not hold for references with tabs: after a save the glyph cannot be flattened any more. -/
theorem C144_tabs : ∃ d d' : Disk, ∃ f, OpenedAndSaved (PD := Unit) (fun a _ => a) (io Sample.dates64 .indented) (XmlText.io .indented)
      (fun g => g.outline.getD [] = []) d d' ∧
    ¬ OutRel (fun g g' : Glif Unit _ =>
        ∀ n, FlattenedAlike (g.flattened (fun c => c.toComponent (fun a _ => a) (io Sample.dates64 .indented) (d.files (XmlText.io .indented))) n)
          (g'.flattened (fun c => c.toComponent (fun a _ => a) (io Sample.dates64 .indented) (d'.files (XmlText.io .indented))) n))
      (readFile (fun a _ => a) (io Sample.dates64 .indented) (XmlText.io .indented) d {} f)
      (readFile (fun a _ => a) (io Sample.dates64 .indented) (XmlText.io .indented) d' {} f) := by
  have h1 : (match Sample.tabbedSaved with | .ok d => Sample.flatPoints d | _ => none) = some none := by decide +kernel
  have h2 : Sample.flatPoints Sample.tabbedFiles = some (some [2]) := by decide +kernel
  have h3 : (match readFile (PD := Unit) (fun a _ => a) (io Sample.dates64 .indented) (XmlText.io .indented) Sample.tabbedFiles {}
      (Path.ofStr "font/A_.glif".toList) with | .ok g => (g.outline.getD []).isEmpty | _ => false) = true := by decide +kernel
  match hd : Sample.tabbedSaved with
  | .err _ => rw [hd] at h1; cases h1
  | .panic => rw [hd] at h1; cases h1
  | .ok d' =>
    rw [hd] at h1
    obtain ⟨g, hr, hw⟩ := bind_eq_ok.1 hd
    rw [hr] at h3
    refine ⟨Sample.tabbedFiles, d', Path.ofStr "font/A_.glif".toList, ⟨_, g, hr, List.isEmpty_iff.1 h3, hw⟩, fun h => ?_⟩
    rw [hr] at h
    unfold Sample.flatPoints at h1 h2
    rw [hr] at h2
    match hr' : readFile (PD := Unit) (fun a _ => a) (io Sample.dates64 .indented) (XmlText.io .indented) d' {} (Path.ofStr "font/A_.glif".toList) with
    | .err _ => simp only [hr'] at h1; cases h1
    | .panic => simp only [hr'] at h1; cases h1
    | .ok g' =>
      rw [hr'] at h
      simp only [hr'] at h1 h2
      cases h with
      | ok h =>
        have := h 5
        revert h1 h2
        generalize g.flattened _ 5 = x at this ⊢
        generalize g'.flattened _ 5 = y at this ⊢
        cases this with
        | ok => intro _ h; cases h
        | _ => intro h; cases h

end GP
