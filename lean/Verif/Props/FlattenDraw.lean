import Verif.Spec.FlattenDraw
import Verif.Props.Chain
import Verif.Props.SkiaStrokes
/-!
# What flattened glyphs draw (C114)
-/
open Fl
namespace GP
open Spec
variable {PD D : Type}

/-! ## Paths of moved contours -/

theorem ptype_applyMatrices (As : List Affine) : ∀ p : Point PD, (p.applyMatrices As).ptype = p.ptype := by
  induction As with
  | nil => intro p; rfl
  | cons A As ih => intro p; exact ih _

theorem place_applyMatrices (As : List Affine) (p : Point PD) :
    ((p.applyMatrices As).x, (p.applyMatrices As).y) = images As (p.x, p.y) := (movedThrough_images (movedThrough As p)).1

theorem outPos_applyMatrices (As : List Affine) (p : Point PD) : outPos (p.applyMatrices As) = images As (outPos p) := by
  obtain ⟨h1, h2, h3, -, -⟩ := movedThrough_images (movedThrough As p)
  unfold outPos
  cases h : p.a with
  | colocated => rw [h3 h]; exact h1
  | «at» x y => rw [h2 x y h]

theorem inPos_applyMatrices (As : List Affine) (p : Point PD) : inPos (p.applyMatrices As) = images As (inPos p) := by
  obtain ⟨h1, -, -, h4, h5⟩ := movedThrough_images (movedThrough As p)
  unfold inPos
  cases h : p.b with
  | colocated => rw [h5 h]; exact h1
  | «at» x y => rw [h4 x y h]

def movedSeg (F : SkPoint → SkPoint) : SkSeg → SkSeg
  | .line p => .line (F p)
  | .quad c p => .quad (F c) (F p)
  | .conic c p w => .conic (F c) (F p) w
  | .cubic a b p => .cubic (F a) (F b) (F p)

def movedSk (F : SkPoint → SkPoint) (c : SkContour) : SkContour := ⟨F c.start, c.segs.map (movedSeg F), c.closed⟩

theorem movedSk_els (F : SkPoint → SkPoint) (c : SkContour) : (movedSk F c).els = c.els.map (movedEl F) := by
  unfold movedSk SkContour.els
  have : ∀ l : List SkSeg, (l.map (movedSeg F)).map SkSeg.el = (l.map SkSeg.el).map (movedEl F) := by
    intro l
    rw [List.map_map, List.map_map]
    refine List.map_congr_left fun g _ => ?_
    cases g <;> rfl
  cases c.closed <;> simp [this, movedEl]

theorem segOf_applyMatrices (As : List Affine) (p q : Point PD) :
    segOf (p.applyMatrices As) (q.applyMatrices As) = (segOf p q).map (movedSeg (images As)) := by
  unfold segOf
  rw [ptype_applyMatrices, outPos_applyMatrices, inPos_applyMatrices, place_applyMatrices]
  cases q.ptype <;> rfl

theorem segsOf_applyMatrices (As : List Affine) (l : List (Point PD)) : ∀ p : Point PD,
    segsOf (p.applyMatrices As) (l.map (Point.applyMatrices As)) = (segsOf p l).map (movedSeg (images As)) := by
  induction l with
  | nil => intro p; rfl
  | cons q l ih => intro p; rw [List.map_cons, segsOf, segsOf, ih, segOf_applyMatrices, List.map_append]

theorem skContourOf_applyMatrices (As : List Affine) (p : Point PD) (l : List (Point PD)) :
    skContourOf (p.applyMatrices As) (l.map (Point.applyMatrices As)) = movedSk (images As) (skContourOf p l) := by
  have h1 : (l.map (Point.applyMatrices As)).getLastD (p.applyMatrices As) = (l.getLastD p).applyMatrices As := by
    rw [List.getLastD_eq_getLast?, List.getLastD_eq_getLast?, List.getLast?_map]
    cases l.getLast? <;> rfl
  unfold skContourOf movedSk
  rw [place_applyMatrices, segsOf_applyMatrices, ptype_applyMatrices, h1, segOf_applyMatrices]
  split_ifs <;> simp

theorem toSkiaPath_applyMatrices (As : List Affine) (c : Contour PD) :
    toSkiaPath id id (c.map (Point.applyMatrices As)) = (toSkiaPath id id c).map (List.map (movedEl (images As))) := by
  cases c with
  | nil => rfl
  | cons p l => rw [List.map_cons, toSkiaPath_els, toSkiaPath_els, skContourOf_applyMatrices, movedSk_els]; rfl

theorem openContour_applyMatrices (As : List Affine) (c : Contour PD) : openContour (c.map (Point.applyMatrices As)) = openContour c := by
  cases c with
  | nil => rfl
  | cons p l => simp [openContour, ptype_applyMatrices]

/-- The path of the contours of a kind. -/
def pathPart (f : Contour PD → Bool) (o : Outline PD) : List SkEl := ((o.filter f).filterMap (toSkiaPath id id)).flatten

theorem pathParts_eq (o : Outline PD) : pathParts o = (pathPart openContour o, pathPart (fun c => !openContour c) o) := by
  have hn : ∀ l : List SkEl, (skNonempty l).getD [] = l := by
    intro l
    unfold skNonempty
    cases l <;> rfl
  unfold pathParts
  rw [toSkiaPaths_eq]
  simp only [hn]
  rfl

theorem pathPart_append (f : Contour PD → Bool) (o o' : Outline PD) : pathPart f (o ++ o') = pathPart f o ++ pathPart f o' := by
  simp [pathPart]

theorem pathPart_applyMatrices {f : Contour PD → Bool} (As : List Affine) (hf : ∀ c, f (c.map (Point.applyMatrices As)) = f c) (o : Outline PD) :
    pathPart f (o.map (List.map (Point.applyMatrices As))) = (pathPart f o).map (movedEl (images As)) := by
  induction o with
  | nil => rfl
  | cons c o ih =>
    rw [List.map_cons, ← List.singleton_append, pathPart_append, ih, ← List.singleton_append (x := c), pathPart_append, List.map_append]
    congr 1
    unfold pathPart
    rw [List.filter_singleton, List.filter_singleton, hf]
    cases f c with
    | false => rfl
    | true =>
      have e := toSkiaPath_applyMatrices As c
      cases hc : toSkiaPath id id c with
      | none => rw [hc] at e; simp [e, hc]
      | some x => rw [hc] at e; simp [e, hc]

theorem pathPart_contributions {f : Contour PD → Bool} (hf : ∀ As c, f (c.map (Point.applyMatrices As)) = f c)
    (ns : List (List Affine × Component PD D)) :
    pathPart f (ns.flatMap contribution) = ns.flatMap fun n => (pathPart f (n.2.glif.outline.getD [])).map (movedEl (images (n.2.matrix :: n.1))) := by
  induction ns with
  | nil => rfl
  | cons n ns ih =>
    rw [List.flatMap_cons, List.flatMap_cons, pathPart_append, ih]
    congr 1
    exact pathPart_applyMatrices _ (hf _) _

/-- **C114.** The Skia path of a flattened glyph consists of the paths of the glyphs of its components and of their
components, one after the other, with all control points moved by the matrices on the way to each; the open contours
and the closed ones in a path of their own. -/
theorem C114_path {toC : GlifComponent → R (Component PD D)} {n : Nat} {g g' : Glif PD D}
    {rects : List ComponentRect} {ts : List (Tree (Component PD D))}
    (h : g.flattened toC n = some (.ok (g', rects))) (ht : g.components.forest toC n = some (.ok ts)) :
    ∃ o, g'.outline = some o ∧
      (pathParts o).1 = (ts.flatMap (lastFirst (·.matrix))).flatMap (fun x => (pathParts (x.2.glif.outline.getD [])).1.map (movedEl (images (x.2.matrix :: x.1)))) ∧
      (pathParts o).2 = (ts.flatMap (lastFirst (·.matrix))).flatMap (fun x => (pathParts (x.2.glif.outline.getD [])).2.map (movedEl (images (x.2.matrix :: x.1)))) := by
  obtain ⟨ts', h1, -, rfl⟩ := flattened_ok h
  rw [ht] at h1
  cases h1
  refine ⟨_, rfl, ?_⟩
  rw [flattenForest_fst]
  simp only [pathParts_eq]
  exact ⟨pathPart_contributions openContour_applyMatrices _, pathPart_contributions (fun As c => by rw [openContour_applyMatrices]) _⟩

/-! ## Where the curves run -/

def movedStroke (F : SkPoint → SkPoint) : Stroke → Stroke
  | .line a b => .line (F a) (F b)
  | .quad a b c => .quad (F a) (F b) (F c)
  | .cubic a b c d => .cubic (F a) (F b) (F c) (F d)

def SegNotConic (g : SkSeg) : Prop := ∀ c p w, g ≠ .conic c p w

theorem strokesFrom_moved (conic : ConicToQuads) (F : SkPoint → SkPoint) (l : List SkSeg) (hl : ∀ g ∈ l, SegNotConic g) : ∀ s,
    strokesFrom conic (F s) (l.map (movedSeg F)) = (strokesFrom conic s l).map (movedStroke F) := by
  induction l with
  | nil => intro s; rfl
  | cons g l ih =>
    intro s
    have hs : (movedSeg F g).stop = F g.stop := by cases g <;> rfl
    rw [List.map_cons, strokesFrom, strokesFrom, hs, ih fun x hx => hl x (List.mem_cons_of_mem _ hx), List.map_append]
    congr 1
    have := hl g (List.mem_cons_self ..)
    cases g with
    | conic c p w => exact absurd rfl (this c p w)
    | _ => rfl

theorem penAt_moved (F : SkPoint → SkPoint) (l : List SkSeg) : ∀ s, penAt (F s) (l.map (movedSeg F)) = F (penAt s l) := by
  induction l with
  | nil => intro s; rfl
  | cons g l ih =>
    intro s
    have hs : (movedSeg F g).stop = F g.stop := by cases g <;> rfl
    rw [List.map_cons, penAt, penAt, hs, ih]

theorem allStrokes_moved (conic : ConicToQuads) (F : SkPoint → SkPoint) (c : SkContour) (hl : ∀ g ∈ c.segs, SegNotConic g) :
    (movedSk F c).allStrokes conic = (c.allStrokes conic).map (movedStroke F) := by
  obtain ⟨s, l, cl⟩ := c
  have h1 : (movedSk F ⟨s, l, cl⟩).stop = F (SkContour.stop ⟨s, l, cl⟩) := by
    rw [stop_eq, stop_eq]
    exact penAt_moved F l s
  unfold SkContour.allStrokes
  rw [h1, List.map_append]
  show strokesFrom conic (F s) (l.map (movedSeg F)) ++ _ = _
  rw [strokesFrom_moved _ _ _ hl]
  cases cl <;> rfl

theorem segOf_notConic (p q : Point PD) : ∀ g ∈ segOf p q, SegNotConic g := by
  unfold segOf
  cases q.ptype <;> simp [SegNotConic]

theorem segsOf_notConic (l : List (Point PD)) : ∀ p : Point PD, ∀ g ∈ segsOf p l, SegNotConic g := by
  induction l with
  | nil => intro p g hg; cases hg
  | cons q l ih =>
    intro p g hg
    rcases List.mem_append.1 hg with h | h
    · exact segOf_notConic _ _ g h
    · exact ih q g h

theorem skContourOf_notConic (p : Point PD) (l : List (Point PD)) : ∀ g ∈ (skContourOf p l).segs, SegNotConic g := by
  intro g hg
  rcases List.mem_append.1 hg with h | h
  · exact segsOf_notConic l p g h
  · split_ifs at h
    · cases h
    · exact segOf_notConic _ _ g h

/-- The points of a segment. -/
def segPoints : SkSeg → List SkPoint
  | .line p => [p]
  | .quad c p => [c, p]
  | .conic c p _ => [c, p]
  | .cubic a b p => [a, b, p]

theorem strokesFrom_points {P : SkPoint → Prop} (conic : ConicToQuads) (l : List SkSeg) (hl : ∀ g ∈ l, SegNotConic g)
    (hp : ∀ g ∈ l, ∀ z ∈ segPoints g, P z) : ∀ s, P s → (∀ t ∈ strokesFrom conic s l, ∀ z ∈ t.points, P z) ∧ P (penAt s l) := by
  induction l with
  | nil => intro s hs; exact ⟨fun t ht => absurd ht List.not_mem_nil, hs⟩
  | cons g l ih =>
    intro s hs
    have hg := hp g (List.mem_cons_self ..)
    have hstop : P g.stop := by
      cases g with
      | line p => exact hg p (by simp [segPoints])
      | quad c p => exact hg p (by simp [segPoints])
      | conic c p w => exact hg p (by simp [segPoints])
      | cubic a b p => exact hg p (by simp [segPoints])
    obtain ⟨i1, i2⟩ := ih (fun x hx => hl x (List.mem_cons_of_mem _ hx)) (fun x hx => hp x (List.mem_cons_of_mem _ hx)) g.stop hstop
    refine ⟨fun t ht z hz => ?_, i2⟩
    rcases List.mem_append.1 ht with h | h
    · have hn := hl g (List.mem_cons_self ..)
      cases g with
      | conic c p w => exact absurd rfl (hn c p w)
      | line p =>
        simp only [SkSeg.strokes, List.mem_singleton] at h
        subst h
        simp only [Stroke.points, List.mem_cons, List.not_mem_nil, or_false] at hz
        rcases hz with rfl | rfl
        · exact hs
        · exact hg z (by simp [segPoints])
      | quad c p =>
        simp only [SkSeg.strokes, List.mem_singleton] at h
        subst h
        simp only [Stroke.points, List.mem_cons, List.not_mem_nil, or_false] at hz
        rcases hz with rfl | rfl | rfl
        · exact hs
        · exact hg z (by simp [segPoints])
        · exact hg z (by simp [segPoints])
      | cubic a b p =>
        simp only [SkSeg.strokes, List.mem_singleton] at h
        subst h
        simp only [Stroke.points, List.mem_cons, List.not_mem_nil, or_false] at hz
        rcases hz with rfl | rfl | rfl | rfl
        · exact hs
        · exact hg z (by simp [segPoints])
        · exact hg z (by simp [segPoints])
        · exact hg z (by simp [segPoints])
    · exact i1 t h z hz

/-- A point and where its handles are. -/
def PlacesOk (P : SkPoint → Prop) (p : Point PD) : Prop := P (p.x, p.y) ∧ P (outPos p) ∧ P (inPos p)

theorem segOf_points {P : SkPoint → Prop} {p q : Point PD} (hp : PlacesOk P p) (hq : PlacesOk P q) : ∀ g ∈ segOf p q, ∀ z ∈ segPoints g, P z := by
  intro g hg z hz
  unfold segOf at hg
  cases h : q.ptype <;> rw [h] at hg <;> simp only [List.mem_singleton, List.not_mem_nil] at hg
  all_goals subst hg
  all_goals simp only [segPoints, List.mem_cons, List.not_mem_nil, or_false] at hz
  · rcases hz with rfl | rfl | rfl
    exacts [hp.2.1, hq.2.2, hq.1]
  · rcases hz with rfl | rfl
    exacts [hp.2.1, hq.1]
  · subst hz
    exact hq.1

theorem segsOf_points {P : SkPoint → Prop} (l : List (Point PD)) : ∀ p : Point PD, (∀ q ∈ p :: l, PlacesOk P q) →
    ∀ g ∈ segsOf p l, ∀ z ∈ segPoints g, P z := by
  induction l with
  | nil => intro p _ g hg; cases hg
  | cons q l ih =>
    intro p h g hg
    rcases List.mem_append.1 hg with hg | hg
    · exact segOf_points (h p (by simp)) (h q (by simp)) g hg
    · exact ih q (fun x hx => h x (List.mem_cons_of_mem _ hx)) g hg

theorem allStrokes_points {P : SkPoint → Prop} (conic : ConicToQuads) (p : Point PD) (l : List (Point PD)) (h : ∀ q ∈ p :: l, PlacesOk P q) :
    ∀ t ∈ (skContourOf p l).allStrokes conic, ∀ z ∈ t.points, P z := by
  have hlast : l.getLastD p ∈ p :: l := by
    rw [List.getLastD_eq_getLast?]
    cases hl : l.getLast? with
    | none => simp
    | some z => exact List.mem_cons_of_mem _ (List.mem_of_getLast? hl)
  have hs : ∀ g ∈ (skContourOf p l).segs, ∀ z ∈ segPoints g, P z := by
    intro g hg
    rcases List.mem_append.1 hg with hg | hg
    · exact segsOf_points l p h g hg
    · split_ifs at hg
      · cases hg
      · exact segOf_points (h _ hlast) (h p (by simp)) g hg
  have h0 : P (skContourOf p l).start := (h p (by simp)).1
  obtain ⟨h1, h2⟩ := strokesFrom_points conic _ (skContourOf_notConic p l) hs _ h0
  intro t ht z hz
  rcases List.mem_append.1 ht with ht | ht
  · exact h1 t ht z hz
  · split_ifs at ht
    · rw [List.mem_singleton] at ht
      subst ht
      simp only [Stroke.points, List.mem_cons, List.not_mem_nil, or_false] at hz
      rcases hz with rfl | rfl
      · rw [stop_eq]; exact h2
      · exact h0
    · cases ht

theorem tame_places {B : ℚ} {As : List Affine} {p : Point PD} (h : TamePoint B As p) : PlacesOk (fun z => Tame B As z.1 z.2) p := by
  obtain ⟨h1, h2, h3⟩ := h
  refine ⟨h1, ?_, ?_⟩
  · unfold outPos
    cases ha : p.a with
    | colocated => exact h1
    | «at» x y => rw [ha] at h2; exact h2
  · unfold inPos
    cases hb : p.b with
    | colocated => exact h1
    | «at» x y => rw [hb] at h3; exact h3

/-- A weighted sum of four points. -/
def mix (w : ℚ × ℚ × ℚ × ℚ) (a b c d : ℚ × ℚ) : ℚ × ℚ :=
  (w.1 * a.1 + w.2.1 * b.1 + w.2.2.1 * c.1 + w.2.2.2 * d.1, w.1 * a.2 + w.2.1 * b.2 + w.2.2.1 * c.2 + w.2.2.2 * d.2)

theorem exactChain_mix (As : List Affine) {w : ℚ × ℚ × ℚ × ℚ} (hw : w.1 + w.2.1 + w.2.2.1 + w.2.2.2 = 1) : ∀ a b c d : ℚ × ℚ,
    exactChain As (mix w a b c d) = mix w (exactChain As a) (exactChain As b) (exactChain As c) (exactChain As d) := by
  induction As with
  | nil => intro a b c d; rfl
  | cons A As ih =>
    intro a b c d
    simp only [exactChain]
    rw [← ih]
    congr 1
    obtain ⟨w0, w1, w2, w3⟩ := w
    simp only at hw
    simp only [exactImage, mix, Prod.mk.injEq]
    constructor
    · linear_combination (-A.e.toRat) * hw
    · linear_combination (-A.f.toRat) * hw

theorem mix_near {w : ℚ × ℚ × ℚ × ℚ} {r : ℚ} (hw : w.1 + w.2.1 + w.2.2.1 + w.2.2.2 = 1) (h0 : 0 ≤ w.1) (h1 : 0 ≤ w.2.1) (h2 : 0 ≤ w.2.2.1)
    (h3 : 0 ≤ w.2.2.2) {a b c d a' b' c' d' : ℚ × ℚ} (ha : |a'.1 - a.1| ≤ r ∧ |a'.2 - a.2| ≤ r) (hb : |b'.1 - b.1| ≤ r ∧ |b'.2 - b.2| ≤ r)
    (hc : |c'.1 - c.1| ≤ r ∧ |c'.2 - c.2| ≤ r) (hd : |d'.1 - d.1| ≤ r ∧ |d'.2 - d.2| ≤ r) :
    |(mix w a' b' c' d').1 - (mix w a b c d).1| ≤ r ∧ |(mix w a' b' c' d').2 - (mix w a b c d).2| ≤ r := by
  obtain ⟨w0, w1, w2, w3⟩ := w
  simp only at hw h0 h1 h2 h3
  have key : ∀ a b c d : ℚ, |a| ≤ r → |b| ≤ r → |c| ≤ r → |d| ≤ r → |w0 * a + w1 * b + w2 * c + w3 * d| ≤ r := by
    intro a b c d ha hb hc hd
    rw [abs_le] at *
    have e : r = w0 * r + w1 * r + w2 * r + w3 * r := by linear_combination (-r) * hw
    have f := fun (w x : ℚ) (hw : 0 ≤ w) (hx : -r ≤ x ∧ x ≤ r) => (⟨by nlinarith [hx.1], by nlinarith [hx.2]⟩ : -(w * r) ≤ w * x ∧ w * x ≤ w * r)
    have e0 := f w0 a h0 ha
    have e1 := f w1 b h1 hb
    have e2 := f w2 c h2 hc
    have e3 := f w3 d h3 hd
    constructor <;> linarith [e0.1, e0.2, e1.1, e1.2, e2.1, e2.2, e3.1, e3.2]
  constructor
  · have := key _ _ _ _ ha.1 hb.1 hc.1 hd.1
    have e : (mix (w0, w1, w2, w3) a' b' c' d').1 - (mix (w0, w1, w2, w3) a b c d).1 =
        w0 * (a'.1 - a.1) + w1 * (b'.1 - b.1) + w2 * (c'.1 - c.1) + w3 * (d'.1 - d.1) := by simp only [mix]; ring
    rw [e]; exact this
  · have := key _ _ _ _ ha.2 hb.2 hc.2 hd.2
    have e : (mix (w0, w1, w2, w3) a' b' c' d').2 - (mix (w0, w1, w2, w3) a b c d).2 =
        w0 * (a'.2 - a.2) + w1 * (b'.2 - b.2) + w2 * (c'.2 - c.2) + w3 * (d'.2 - d.2) := by simp only [mix]; ring
    rw [e]; exact this

/-- The value of a point. -/
def ratPt (z : SkPoint) : ℚ × ℚ := (z.1.toRat, z.2.toRat)

theorem strokeLands_of {As : List Affine} {r : ℚ} (s : Stroke)
    (h : ∀ z ∈ s.points, Lands (images As z).1 (images As z).2 (exactChain As (ratPt z)) r) : StrokeLands As r s (movedStroke (images As) s) := by
  have near : ∀ z ∈ s.points, |(ratPt (images As z)).1 - (exactChain As (ratPt z)).1| ≤ r ∧ |(ratPt (images As z)).2 - (exactChain As (ratPt z)).2| ≤ r :=
    fun z hz => ⟨(h z hz).1.2, (h z hz).2.2⟩
  refine ⟨by cases s <;> rfl, ?_, ?_⟩
  · have : (movedStroke (images As) s).points = s.points.map (images As) := by cases s <;> rfl
    rw [this]
    intro p hp
    obtain ⟨z, hz, rfl⟩ := List.mem_map.1 hp
    exact ⟨(h z hz).1.1, (h z hz).2.1⟩
  · intro t h0 h1
    have h1' : 0 ≤ 1 - t := by linarith
    cases s with
    | line a b =>
      have hw : ((1 - t, t, 0, 0) : ℚ × ℚ × ℚ × ℚ).1 + t + 0 + 0 = 1 := by simp
      have e : ∀ a b : SkPoint, (Stroke.line a b).atParam t = mix (1 - t, t, 0, 0) (ratPt a) (ratPt b) (ratPt b) (ratPt b) := by
        intro a b
        simp [Stroke.atParam, mix, ratPt]
      rw [movedStroke, e, e, exactChain_mix As hw]
      have na := near a (by simp [Stroke.points])
      have nb := near b (by simp [Stroke.points])
      exact mix_near hw h1' h0 (le_refl _) (le_refl _) na nb nb nb
    | quad a b c =>
      have hw : (((1 - t) ^ 2, 2 * (1 - t) * t, t ^ 2, 0) : ℚ × ℚ × ℚ × ℚ).1 + 2 * (1 - t) * t + t ^ 2 + 0 = 1 := by simp only; ring
      have e : ∀ a b c : SkPoint, (Stroke.quad a b c).atParam t = mix ((1 - t) ^ 2, 2 * (1 - t) * t, t ^ 2, 0) (ratPt a) (ratPt b) (ratPt c) (ratPt c) := by
        intro a b c
        simp [Stroke.atParam, mix, ratPt, bezier2]
      rw [movedStroke, e, e, exactChain_mix As hw]
      have na := near a (by simp [Stroke.points])
      have nb := near b (by simp [Stroke.points])
      have nc := near c (by simp [Stroke.points])
      exact mix_near hw (by positivity) (by positivity) (by positivity) (le_refl _) na nb nc nc
    | cubic a b c d =>
      have hw : (((1 - t) ^ 3, 3 * (1 - t) ^ 2 * t, 3 * (1 - t) * t ^ 2, t ^ 3) : ℚ × ℚ × ℚ × ℚ).1 + 3 * (1 - t) ^ 2 * t + 3 * (1 - t) * t ^ 2 + t ^ 3 = 1 := by
        simp only; ring
      have e : ∀ a b c d : SkPoint, (Stroke.cubic a b c d).atParam t =
          mix ((1 - t) ^ 3, 3 * (1 - t) ^ 2 * t, 3 * (1 - t) * t ^ 2, t ^ 3) (ratPt a) (ratPt b) (ratPt c) (ratPt d) := by
        intro a b c d
        simp [Stroke.atParam, mix, ratPt, bezier3]
      rw [movedStroke, e, e, exactChain_mix As hw]
      have na := near a (by simp [Stroke.points])
      have nb := near b (by simp [Stroke.points])
      have nc := near c (by simp [Stroke.points])
      have nd := near d (by simp [Stroke.points])
      exact mix_near hw (by positivity) (by positivity) (by positivity) (by positivity) na nb nc nd

/-- **C114** for a contour: the path of a contour that is moved through a chain of matrices draws, at every parameter,
within the accumulated error of where the exact composition of the matrices puts what the contour drew. -/
theorem C114_contour (conic : ConicToQuads) (As : List Affine) (c c' : Contour PD) (L B : ℚ) (hA : ∀ A ∈ As, StretchAtMost L A) (hB : 0 ≤ B)
    (hL : 0 ≤ L) (hc : ∀ p ∈ c, TamePoint B As p) (hr : B + L * chainError L B As.length ≤ 2 ^ 126) (h : List.Forall₂ (MovedThrough As) c c') :
    ContourDraws conic As (chainError L B As.length) c c' := by
  have e : c' = c.map (Point.applyMatrices As) := by
    refine forall₂_unique (r := MovedThrough As) (fun _ _ _ => movedThrough_unique) h ?_
    rw [List.forall₂_map_right_iff]
    exact List.forall₂_same.2 fun p _ => movedThrough As p
  subst e
  cases c with
  | nil => exact .inl ⟨rfl, rfl⟩
  | cons p l =>
    refine .inr ⟨skContourOf p l, movedSk (images As) (skContourOf p l), toSkiaPath_els p l, ?_, rfl, ?_⟩
    · rw [List.map_cons, toSkiaPath_els, skContourOf_applyMatrices]
    rw [allStrokes_moved conic _ _ (skContourOf_notConic p l), List.forall₂_map_right_iff]
    have room : ∀ k < As.length, B + L * errorFrom L B k 0 ≤ 2 ^ 126 := by
      intro k hk
      rw [errorFrom_zero]
      have := mul_le_mul_of_nonneg_left (chainError_mono hL hB hk.le) hL
      linarith
    refine List.forall₂_same.2 fun s hs => strokeLands_of s fun z hz => ?_
    have ht := allStrokes_points conic p l (fun q hq => tame_places (hc q hq)) s hs z hz
    have := images_land (p := ratPt z) (x := z.1) (y := z.2) (r := 0) hA ht.2.2 ⟨⟨ht.1, by simp [ratPt]⟩, ⟨ht.2.1, by simp [ratPt]⟩⟩ room
    rwa [errorFrom_zero] at this

theorem _root_.GP.Spec.StrokeLands.mono {As : List Affine} {r q : ℚ} {s s' : Stroke} (h : StrokeLands As r s s') (hrq : r ≤ q) : StrokeLands As q s s' :=
  ⟨h.kind, h.finite, fun t h0 h1 => ⟨(h.near t h0 h1).1.trans hrq, (h.near t h0 h1).2.trans hrq⟩⟩

theorem _root_.GP.Spec.ContourDraws.mono {conic : ConicToQuads} {As : List Affine} {r q : ℚ} {c c' : Contour PD} (h : ContourDraws conic As r c c') (hrq : r ≤ q) :
    ContourDraws conic As q c c' := by
  rcases h with h | ⟨k, k', h1, h2, h3, h4⟩
  · exact .inl h
  · exact .inr ⟨k, k', h1, h2, h3, h4.imp fun _ _ h => h.mono hrq⟩

/-- **C114.** Every contour of a flattened glyph draws the exact image of what a contour of one of its components, or
of their components, draws, within the accumulated error at every parameter. -/
theorem C114_flattened (conic : ConicToQuads) {toC : GlifComponent → R (Component PD D)} {n : Nat} {g g' : Glif PD D}
    {rects : List ComponentRect} {ts : List (Tree (Component PD D))} {L B : ℚ}
    (h : g.flattened toC n = some (.ok (g', rects))) (ht : g.components.forest toC n = some (.ok ts))
    (hB : 0 ≤ B) (hL : 0 ≤ L)
    (hA : ∀ x ∈ ts.flatMap (lastFirst (·.matrix)), ∀ A ∈ x.2.matrix :: x.1, StretchAtMost L A)
    (hr : B + L * chainError L B 2 ≤ 2 ^ 126) :
    ∃ os, g'.outline = some os.flatten ∧ List.Forall₂ (NodeDraws conic B (chainError L B)) (ts.flatMap (lastFirst (·.matrix))) os := by
  obtain ⟨o, ⟨os, h1, rfl⟩, ho⟩ := C22_order h ht
  refine ⟨os, ho, ?_⟩
  clear ho
  have hlen : ∀ x ∈ ts.flatMap (lastFirst (·.matrix)), x.1.length ≤ 1 := fun x hx => (visited_chain hx).1
  generalize ts.flatMap (lastFirst (·.matrix)) = ns at h1 hA hlen
  induction h1 with
  | nil => exact .nil
  | @cons x o' ns os hx _ ih =>
    refine .cons ?_ (ih (fun y hy => hA y (by simp [hy])) (fun y hy => hlen y (by simp [hy])))
    unfold DrawnNode at hx
    refine hx.imp fun c c' hc htame => ?_
    refine C114_contour conic (x.2.matrix :: x.1) c c' L B (hA x (by simp)) hB hL htame ?_ hc
    have l1 := hlen x (by simp)
    have := mul_le_mul_of_nonneg_left (chainError_mono hL hB (show (x.2.matrix :: x.1).length ≤ 2 by rw [List.length_cons]; omega)) hL
    linarith

/-- In the sizes of fonts: if no matrix makes anything longer than twice and the numbers added up are at most `2^15`
together, everything that a flattened glyph draws is off by at most 1/50 unit. -/
theorem C114_fonts (conic : ConicToQuads) {toC : GlifComponent → R (Component PD D)} {n : Nat} {g g' : Glif PD D}
    {rects : List ComponentRect} {ts : List (Tree (Component PD D))}
    (h : g.flattened toC n = some (.ok (g', rects))) (ht : g.components.forest toC n = some (.ok ts))
    (hA : ∀ x ∈ ts.flatMap (lastFirst (·.matrix)), ∀ A ∈ x.2.matrix :: x.1, StretchAtMost 2 A) :
    ∃ os, g'.outline = some os.flatten ∧ List.Forall₂ (NodeDraws conic (2 ^ 15) fun _ => 1 / 50) (ts.flatMap (lastFirst (·.matrix))) os := by
  have two : chainError 2 (2 ^ 15) 2 ≤ 1 / 50 := by
    simp only [chainError, nextError]
    norm_num
  obtain ⟨os, h1, h2⟩ := C114_flattened (L := 2) (B := 2 ^ 15) conic h ht (by norm_num) (by norm_num) hA (by norm_num at two ⊢; linarith)
  refine ⟨os, h1, ?_⟩
  clear h1
  have hlen : ∀ x ∈ ts.flatMap (lastFirst (·.matrix)), x.1.length ≤ 1 := fun x hx => (visited_chain hx).1
  generalize ts.flatMap (lastFirst (·.matrix)) = ns at h2 hlen
  induction h2 with
  | nil => exact .nil
  | @cons x o' ns os hx _ ih =>
    refine .cons (hx.imp fun c c' hc htame => (hc htame).mono ?_) (ih fun y hy => hlen y (by simp [hy]))
    have l1 := hlen x (by simp)
    exact (chainError_mono (by norm_num) (by norm_num) (show x.1.length + 1 ≤ 2 by omega)).trans two

/-! ### The hypotheses can be met -/

/-- A glyph with components of components. -/
example (mid : IOF → IOF → IOF) (pio : PlistIO D) :
    ∃ g' rects ts, (userOf D ["b", "a"]).flattened (sresolve mid pio) 3 = some (.ok (g', rects)) ∧
      (userOf D ["b", "a"]).components.forest (sresolve mid pio) 3 = some (.ok ts) ∧
      (∀ x ∈ ts.flatMap (lastFirst (·.matrix)), ∀ A ∈ x.2.matrix :: x.1, StretchAtMost 2 A) ∧
      (2 : ℚ) ^ 15 + 2 * chainError 2 (2 ^ 15) 2 ≤ 2 ^ 126 ∧ ∃ x ∈ ts.flatMap (lastFirst (·.matrix)), x.1 ≠ [] := by
  refine ⟨_, _, _, user_flattened mid pio (sample_ba mid pio), sample_ba mid pio, ?_, ?_, ?_⟩
  · intro x hx A hA
    simp only [lastFirst, treeB, treeA, Tree.data, Tree.children, List.flatMap_cons, List.flatMap_nil, List.append_nil, List.reverse_cons, List.reverse_nil,
      List.nil_append, List.map_cons, List.map_nil, List.cons_append, List.mem_cons, List.not_mem_nil, or_false] at hx
    rcases hx with rfl | rfl | rfl
    all_goals simp only [List.mem_cons, List.not_mem_nil, or_false] at hA
    · subst hA; exact sref_stretch ..
    · rcases hA with rfl | rfl <;> exact sref_stretch ..
    · subst hA; exact sref_stretch ..
  · simp only [chainError, nextError]; norm_num
  · refine ⟨_, List.mem_flatMap.2 ⟨_, List.mem_cons_self .., List.mem_cons_of_mem _ (List.mem_map.2 ⟨_, List.mem_cons_self .., rfl⟩)⟩, by simp⟩

end GP
