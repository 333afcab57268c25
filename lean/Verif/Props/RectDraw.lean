import Verif.Spec.RectDraw
import Verif.Props.FlattenRect
import Verif.Props.SkiaStrokes
import Verif.Float.SqrtError
import Mathlib.Tactic.Linarith
/-!
# C128: rectangles of components and what is drawn
-/
open Fl
namespace GP
variable {PD D : Type}
open Spec

/-! ## Curves run between their control points -/

theorem line_between {a b lo hi t : ℚ} (ha : lo ≤ a ∧ a ≤ hi) (hb : lo ≤ b ∧ b ≤ hi) (h0 : 0 ≤ t) (h1 : t ≤ 1) :
    lo ≤ (1 - t) * a + t * b ∧ (1 - t) * a + t * b ≤ hi := by
  have e : 0 ≤ 1 - t := by linarith
  constructor
  · nlinarith [mul_le_mul_of_nonneg_left ha.1 e, mul_le_mul_of_nonneg_left hb.1 h0]
  · nlinarith [mul_le_mul_of_nonneg_left ha.2 e, mul_le_mul_of_nonneg_left hb.2 h0]

theorem bezier3_between {a b c d lo hi t : ℚ} (ha : lo ≤ a ∧ a ≤ hi) (hb : lo ≤ b ∧ b ≤ hi) (hc : lo ≤ c ∧ c ≤ hi) (hd : lo ≤ d ∧ d ≤ hi)
    (h0 : 0 ≤ t) (h1 : t ≤ 1) : lo ≤ bezier3 a b c d t ∧ bezier3 a b c d t ≤ hi := by
  have p := line_between ha hb h0 h1
  have q := line_between hb hc h0 h1
  have r := line_between hc hd h0 h1
  have u := line_between p q h0 h1
  have v := line_between q r h0 h1
  have w := line_between u v h0 h1
  have e : bezier3 a b c d t = (1 - t) * ((1 - t) * ((1 - t) * a + t * b) + t * ((1 - t) * b + t * c)) +
      t * ((1 - t) * ((1 - t) * b + t * c) + t * ((1 - t) * c + t * d)) := by
    unfold bezier3
    ring
  rw [e]
  exact w

/-- A piece whose control points are in a rectangle is. -/
theorem stroke_within {r : Rect} {s : Stroke} (hs : ∀ a b c, s ≠ .quad a b c) (h : ∀ p ∈ s.points, PlaceIn r (p.1.toRat, p.2.toRat)) {t : ℚ} (h0 : 0 ≤ t) (h1 : t ≤ 1) :
    PlaceIn r (s.atParam t) := by
  cases s with
  | quad a b c => exact absurd rfl (hs a b c)
  | line a b =>
    obtain ⟨a1, a2, a3, a4⟩ := h a (by simp [Stroke.points])
    obtain ⟨b1, b2, b3, b4⟩ := h b (by simp [Stroke.points])
    have x := line_between ⟨a1, a2⟩ ⟨b1, b2⟩ h0 h1
    have y := line_between ⟨a3, a4⟩ ⟨b3, b4⟩ h0 h1
    exact ⟨x.1, x.2, y.1, y.2⟩
  | cubic a b c d =>
    obtain ⟨a1, a2, a3, a4⟩ := h a (by simp [Stroke.points])
    obtain ⟨b1, b2, b3, b4⟩ := h b (by simp [Stroke.points])
    obtain ⟨c1, c2, c3, c4⟩ := h c (by simp [Stroke.points])
    obtain ⟨d1, d2, d3, d4⟩ := h d (by simp [Stroke.points])
    have x := bezier3_between ⟨a1, a2⟩ ⟨b1, b2⟩ ⟨c1, c2⟩ ⟨d1, d2⟩ h0 h1
    have y := bezier3_between ⟨a3, a4⟩ ⟨b3, b4⟩ ⟨c3, c4⟩ ⟨d3, d4⟩ h0 h1
    exact ⟨x.1, x.2, y.1, y.2⟩

/-- The sides of the rectangle are finite. -/
def FiniteRect (r : Rect) : Prop := r.minx.isFinite = true ∧ r.maxx.isFinite = true ∧ r.miny.isFinite = true ∧ r.maxy.isFinite = true

theorem within_of_inside {r : Rect} (hr : FiniteRect r) {p : Point PD} (hf : FinitePos (p.x, p.y)) (h : Inside r p) :
    PlaceIn r (p.x.toRat, p.y.toRat) :=
  ⟨(fle_iff (by decide) hr.1 hf.1).1 h.1, (fle_iff (by decide) hf.1 hr.2.1).1 h.2.1,
   (fle_iff (by decide) hr.2.2.1 hf.2).1 h.2.2.1, (fle_iff (by decide) hf.2 hr.2.2.2).1 h.2.2.2⟩

theorem wantedStroke_mem {c : Contour PD} {s : Stroke} (h : s ∈ wantedStrokes c) : ∃ a ∈ c, ∃ b ∈ c, s = wantedStroke (a, b) := by
  obtain ⟨x, hx, rfl⟩ := List.mem_map.1 h
  refine ⟨x.1, ?_, x.2, ?_, rfl⟩ <;> split at hx
  · exact (List.of_mem_zip hx).1
  · exact (List.of_mem_zip hx).1
  · exact List.mem_of_mem_tail (List.of_mem_zip hx).2
  · rcases List.mem_append.1 (List.of_mem_zip hx).2 with h | h
    · exact List.mem_of_mem_tail h
    · exact List.mem_of_mem_take h

/-- A contour whose points and handles of curves are in a rectangle draws inside it. -/
theorem contour_within (conic : ConicToQuads) {r : Rect} {c : Contour PD} (hc : LinesAndCurves c)
    (hp : ∀ p ∈ c, PlaceIn r (p.x.toRat, p.y.toRat))
    (hh : (∀ p ∈ c, p.ptype ≠ .curve) ∨ ∀ p ∈ c, PlaceIn r ((outPos p).1.toRat, (outPos p).2.toRat) ∧ PlaceIn r ((inPos p).1.toRat, (inPos p).2.toRat)) :
    ∃ k : SkContour, toSkiaPath id id c = some k.els ∧ DrawnWithin conic r k := by
  obtain ⟨p, l, rfl, h1, h2⟩ := hc
  obtain ⟨k, hk, -, hs⟩ := C110_draws conic p l h1 h2
  refine ⟨k, hk, fun s hm t h0 h1 => ?_⟩
  have hw : s ∈ wantedStrokes (p :: l) := by
    rw [hs] at hm
    split at hm
    · exact List.dropLast_subset _ hm
    · exact hm
  obtain ⟨a, ha, b, hb, rfl⟩ := wantedStroke_mem hw
  unfold wantedStroke
  split
  · rename_i hcv
    rcases hh with hh | hh
    · exact absurd hcv (hh b hb)
    refine stroke_within (by simp) (fun q hq => ?_) h0 h1
    simp only [Stroke.points, List.mem_cons, List.not_mem_nil, or_false] at hq
    rcases hq with rfl | rfl | rfl | rfl
    · exact hp a ha
    · exact (hh a ha).1
    · exact (hh b hb).2
    · exact hp b hb
  · refine stroke_within (by simp) (fun q hq => ?_) h0 h1
    simp only [Stroke.points, List.mem_cons, List.not_mem_nil, or_false] at hq
    rcases hq with rfl | rfl
    · exact hp a ha
    · exact hp b hb

theorem finite_isNaN {f : Fmt} {x : Flt f} (h : x.isFinite = true) : x.isNaN = false := by
  cases x with
  | nan => simp [Flt.isFinite] at h
  | num s k hk => rfl

theorem feq_finite {f : Fmt} {x y : Flt f} (h : x.feq y = true) (hy : y.isFinite = true) : x.isFinite = true := by
  cases x with
  | nan => cases y <;> simp [Flt.feq] at h
  | num s k hk =>
    cases y with
    | nan => simp [Flt.feq] at h
    | num t j hj =>
      simp only [Flt.feq, Flt.isFinite, Bool.or_eq_true, Bool.and_eq_true, beq_iff_eq, decide_eq_true_eq] at h hy ⊢
      omega

/-- **C128**, as far as it holds: the rectangle of a component that is drawn where it is and has no contours below
contains, at every parameter, every line and curve that is drawn of it, if it consists of lines or if the handles are
in the rectangle as well.  Missing: curves with handles outside, for which it is false (`C128_false`), and what C26
is missing. -/
theorem C128_partial (conic : ConicToQuads) {toC : GlifComponent → R (Component PD D)} {n : Nat} {g g' : Glif PD D}
    {rects : List ComponentRect} {ts : List (Tree (Component PD D))}
    (h : g.flattened toC n = some (.ok (g', rects))) (ht : g.components.forest toC n = some (.ok ts))
    (i : Nat) (t : Tree (Component PD D)) (r : ComponentRect) (hi : ts[i]? = some t) (hr : rects[i]? = some r)
    (hfin : ∀ c ∈ t.data.glif.outline.getD [], LinesAndCurves c ∧ ∀ p ∈ c, FinitePos (p.x, p.y))
    (hplace : ∀ c ∈ t.data.glif.outline.getD [], ∀ p ∈ c, ∀ q, MovedBy (image t.data.matrix) p q →
      q.x.feq p.x = true ∧ q.y.feq p.y = true)
    (hbelow : ∀ x ∈ nodes (·.matrix) [] t, x.1 ≠ [] → x.2.glif.outline.getD [] = [])
    (o : Outline PD) (ho : DrawnNode ([], t.data) o) (c : Contour PD) (hc : c ∈ o)
    (hh : (∀ p ∈ c, p.ptype ≠ .curve) ∨
      ∀ p ∈ c, PlaceIn r.rect ((outPos p).1.toRat, (outPos p).2.toRat) ∧ PlaceIn r.rect ((inPos p).1.toRat, (inPos p).2.toRat)) :
    ∃ k : SkContour, toSkiaPath id id c = some k.els ∧ DrawnWithin conic r.rect k := by
  have hout : t.data.glif.outline.getD [] ≠ [] := by
    intro h0
    unfold DrawnNode at ho
    rw [h0] at ho
    cases ho
    cases hc
  have hkids : ∀ d ∈ t.children.map Tree.data, d.glif.outline.getD [] = [] := by
    intro d hd
    obtain ⟨x, hx, rfl⟩ := List.mem_map.1 hd
    exact hbelow ([t.data.matrix], x.data) (visited_mem t (List.mem_cons_of_mem _ (List.mem_map.2 ⟨x, List.mem_reverse.2 hx, rfl⟩))) (by simp)
  have hb := ((C26_rectangle h ht i t r hi hr (by
    intro d hd c hc
    rcases List.mem_cons.1 hd with rfl | hd
    · obtain ⟨⟨p, l, rfl, -⟩, hf⟩ := hfin c hc
      exact ⟨by simp, fun p hp => ⟨finite_isNaN (hf p hp).1, finite_isNaN (hf p hp).2⟩⟩
    · rw [hkids d hd] at hc; cases hc)).2 hkids).1 hout
  have hall : ∀ p ∈ (t.data.glif.outline.getD []).flatten, FinitePos (p.x, p.y) := by
    intro p hp
    obtain ⟨c, hc, hp⟩ := List.mem_flatten.1 hp
    exact (hfin c hc).2 p hp
  have hrf : FiniteRect r.rect := by
    obtain ⟨p, hp, e⟩ := hb.left
    obtain ⟨q, hq, e'⟩ := hb.right
    obtain ⟨u, hu, e''⟩ := hb.bottom
    obtain ⟨v, hv, e'''⟩ := hb.top
    exact ⟨e ▸ (hall p hp).1, e' ▸ (hall q hq).1, e'' ▸ (hall u hu).2, e''' ▸ (hall v hv).2⟩
  have hin := C26_partial h ht i t r hi hr hplace hbelow ([], t.data) (visited_mem t (List.mem_cons_self ..)) o ho c hc
  obtain ⟨c0, hc0, hcc⟩ := forall₂_mem_right ho hc
  refine contour_within conic ?_ (fun p hp => within_of_inside hrf ?_ (hin p hp)) hh
  · obtain ⟨p, l, rfl, h1, h2⟩ := (hfin c0 hc0).1
    cases hcc with
    | cons hpq hl =>
      obtain ⟨_, hm, rfl⟩ := hpq
      refine ⟨_, _, rfl, by rw [hm.ptype]; exact h1, fun x hx => ?_⟩
      obtain ⟨y, hy, _, hm', rfl⟩ := forall₂_mem_right hl hx
      rw [hm'.ptype]
      exact h2 y hy
  · obtain ⟨p0, hp0, q, hq, rfl⟩ := forall₂_mem_right hcc hp
    obtain ⟨e1, e2⟩ := hplace c0 hc0 p0 hp0 q hq
    exact ⟨feq_finite e1 ((hfin c0 hc0).2 p0 hp0).1, feq_finite e2 ((hfin c0 hc0).2 p0 hp0).2⟩

/-! ## The hypotheses can be met, and what is missing -/

section samples
variable (mid : IOF → IOF → IOF) (pio : PlistIO D)

/-- A bow from 0 to 10, with handles 20 above it, and straight back. -/
def Sample.bow : Contour Unit :=
  [{ Sample.pt .line 0 0 with a := .at (Sample.f 0) (Sample.f 20) },
   { Sample.pt .curve 10 0 with b := .at (Sample.f 10) (Sample.f 20) }]

/-- A font of one glyph. -/
def oneGlyph (D : Type) (c : Contour Unit) : List (Path × Glif Unit D) := [(sfile "w", sglyph D "w" (some [c]) [])]

/-- A glyph with that glyph as component, where it is. -/
def usesIt (D : Type) : Glif Unit D :=
  { name := "x".toList, components := { vec := [Spec.located (sfile "x") (sref "w" 0)] }, filename := some (sfile "x") }

/-- The tree of the component. -/
def treeW (c : Contour Unit) : Tree (Component Unit D) :=
  .node (resolved (Spec.located (sfile "x") (sref "w" 0)) (sfile "w") (saved (sglyph D "w" (some [c]) []))) []

abbrev resolveIn (c : Contour Unit) : GlifComponent → R (Component Unit D) := fun d => d.toComponent mid pio (fontOf pio (oneGlyph D c))

theorem usesIt_forest (c : Contour Unit) (hs : Saveable pio (sglyph D "w" (some [c]) [])) :
    (usesIt D).components.forest (resolveIn mid pio c) 1 = some (.ok [treeW c]) := by
  rw [forest_eq, Run.mapM_ok]
  refine .cons ?_ .nil
  unfold buildRoot resolveIn
  rw [font_resolves (f := sfile "w") (g := sglyph D "w" (some [c]) []) rfl rfl hs]
  rfl

theorem usesIt_flattened (c : Contour Unit) (hs : Saveable pio (sglyph D "w" (some [c]) [])) :
    (usesIt D).flattened (resolveIn mid pio c) 1 =
      some (.ok ({ usesIt D with outline := some (flattenForest [treeW (D := D) c]).1, components := {} }, (flattenForest [treeW (D := D) c]).2)) := by
  unfold Glif.flattened
  rw [usesIt_forest mid pio c hs, Run.bind_ok]

theorem outline_w (c : Contour Unit) (hr : resavedOutline [c] = [c]) (d : GlifComponent) (f : Path) :
    (resolved d f (saved (sglyph D "w" (some [c]) []))).glif.outline = some [c] := by
  show (saved (sglyph D "w" (some [c]) [])).outline = _
  unfold saved sglyph
  simp [hr]

theorem bow_resaved : resavedOutline [Sample.bow] = [Sample.bow] := by decide +kernel

theorem drawn_w (c : Contour Unit) (hr : resavedOutline [c] = [c]) :
    (flattenForest [treeW (D := D) c]).1 = [c.map (Point.applyMatrices [(sref "w" 0).m.affine])] := by
  rw [flattenForest_fst]
  simp only [List.flatMap_cons, List.flatMap_nil, List.append_nil, visited, treeW, Tree.data, Tree.children, List.reverse_nil,
    List.map_nil, contribution, outline_w c hr, matrix_resolved, List.map_cons, Option.getD_some]
  rfl

theorem rect_w (c : Contour Unit) (hr : resavedOutline [c] = [c]) :
    (flattenTree (treeW (D := D) c) []).1 = (rectOutline [(sref "w" 0).m.affine] 0 {} [c]).1 := by
  simp only [flattenTree, treeW, Tree.data, Tree.children, List.reverse_nil, List.foldl_nil, applyComponentRect, outline_w c hr]
  rfl

/-- The hypotheses of `C128_partial` can be met. -/
example : ∃ (g' : Glif Unit D) (r : ComponentRect) (t : Tree (Component Unit D)),
    (usesIt D).flattened (resolveIn mid pio square) 1 = some (.ok (g', [r])) ∧
    (usesIt D).components.forest (resolveIn mid pio square) 1 = some (.ok [t]) ∧ t.data.glif.outline.getD [] ≠ [] ∧
    (∀ c ∈ t.data.glif.outline.getD [], LinesAndCurves c ∧ (∀ p ∈ c, FinitePos (p.x, p.y)) ∧ ∀ p ∈ c, p.ptype ≠ .curve) ∧
    (∀ c ∈ t.data.glif.outline.getD [], ∀ p ∈ c, ∀ q, MovedBy (image t.data.matrix) p q → q.x.feq p.x = true ∧ q.y.feq p.y = true) ∧
    ∀ x ∈ nodes (·.matrix) [] t, x.1 ≠ [] → x.2.glif.outline.getD [] = [] := by
  have hf := usesIt_flattened mid pio square (sglyph_saveable pio _ _ _ (Or.inr rfl))
  rw [flattenForest_snd] at hf
  have ho := outline_w (D := D) square square_resaved
  refine ⟨_, _, _, hf, usesIt_forest mid pio square (sglyph_saveable pio _ _ _ (Or.inr rfl)), ?_, ?_, ?_, ?_⟩
  · simp only [treeW, Tree.data, ho, Option.getD_some]
    exact List.cons_ne_nil _ _
  · simp only [treeW, Tree.data, ho, Option.getD_some]
    intro c hc
    cases List.mem_singleton.1 hc
    refine ⟨⟨_, _, rfl, by decide, by decide⟩, ?_, by decide⟩
    unfold FinitePos
    decide +kernel
  · simp only [treeW, Tree.data, ho, Option.getD_some, matrix_resolved]
    intro c hc p hp q hq
    cases List.mem_singleton.1 hc
    have hfin : ∀ p ∈ square, p.x.isFinite = true ∧ p.y.isFinite = true := by decide +kernel
    have he : (Spec.located (sfile "x") (sref "w" 0)).m.affine = Affine.identity :=
      (by decide +kernel : (sref "w" 0).m.affine = Affine.identity)
    rw [he] at hq
    have := identity_app32 (hfin p hp).1 (hfin p hp).2
    have hpos := hq.pos
    rw [show image Affine.identity p.x p.y = Affine.identity.app32 p.x p.y from rfl] at hpos
    rw [← hpos] at this
    exact this
  · intro x hx hne
    simp only [treeW, nodes, nodes.nodesL, List.mem_singleton] at hx
    subst hx
    exact absurd rfl hne

theorem rect_bow : (rectOutline [(sref "w" 0).m.affine] 0 {} [Sample.bow]).1 =
    { minx := Sample.f 0, miny := Sample.f 0, maxx := Sample.f 10, maxy := Sample.f 0 } := by
  simp only [rectOutline, rectContour, Sample.bow]
  decide +kernel

/-- **C128 is false of the code** for curves with handles outside: the rectangle of a bow, drawn where it is, contains
its points and not what is drawn between them. -/
theorem C128_false (conic : ConicToQuads) : ∃ (files : Files) (g g' : Glif Unit D) (r : ComponentRect) (c : Contour Unit) (k : SkContour),
    g.flattened (fun d => d.toComponent mid pio files) 1 = some (.ok (g', [r])) ∧
    (∀ d ∈ g.components.vec, d.m.affine = Affine.identity) ∧ g'.outline = some [c] ∧ (∀ p ∈ c, Inside r.rect p) ∧
    toSkiaPath id id c = some k.els ∧ ¬ DrawnWithin conic r.rect k := by
  have hs : Saveable pio (sglyph D "w" (some [Sample.bow]) []) := by
    refine ⟨?_, fun w hw => by (cases hw), fun a ha => (nomatch ha), trivial⟩
    intro o h c hc
    cases h
    cases List.mem_singleton.1 hc
    exact ⟨by simp [Sample.bow], by simp [Sample.bow, Cubic, Sample.pt]⟩
  have hf := usesIt_flattened mid pio Sample.bow hs
  rw [flattenForest_snd, drawn_w _ bow_resaved, List.map_cons, List.map_nil, rect_w _ bow_resaved, rect_bow] at hf
  obtain ⟨k, hk, -, hst⟩ := C110_draws conic ((Sample.bow.map (Point.applyMatrices [(sref "w" 0).m.affine]))[0])
    ((Sample.bow.map (Point.applyMatrices [(sref "w" 0).m.affine])).tail) (by decide +kernel) (by decide +kernel)
  refine ⟨_, _, _, _, _, k, hf, ?_, rfl, ?_, hk, ?_⟩
  · intro d hd
    cases List.mem_singleton.1 hd
    exact (by decide +kernel : (sref "w" 0).m.affine = Affine.identity)
  · have : ∀ p ∈ Sample.bow.map (Point.applyMatrices [(sref "w" 0).m.affine]),
        Inside { minx := Sample.f 0, miny := Sample.f 0, maxx := Sample.f 10, maxy := Sample.f 0 } p := by
      unfold Inside
      decide +kernel
    exact this
  · intro hw
    have := hw (.cubic (Sample.f 0, Sample.f 0) (Sample.f 0, Sample.f 20) (Sample.f 10, Sample.f 20) (Sample.f 10, Sample.f 0)) (by
      rw [hst]
      decide +kernel) (1 / 2) (by norm_num) (by norm_num)
    have v0 : (Sample.f 0).toRat = 0 := by simpa [Sample.f] using (val_int32 (i := 0) (by decide)).2
    have v20 : (Sample.f 20).toRat = 20 := by simpa [Sample.f] using (val_int32 (i := 20) (by decide)).2
    have h4 : bezier3 (Sample.f 0).toRat (Sample.f 20).toRat (Sample.f 20).toRat (Sample.f 0).toRat (1 / 2) ≤ (Sample.f 0).toRat := this.2.2.2
    rw [v0, v20] at h4
    unfold bezier3 at h4
    norm_num at h4

end samples

end GP
