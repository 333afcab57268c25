import Verif.Props.SkiaDraw
/-!
# What Skia paths of contours draw (C110, C111)
-/
open Fl
namespace GP
variable {PD : Type}
open Spec

/-- The segment drawn to `p` from `prev`. -/
def segOf (prev p : Point PD) : List SkSeg :=
  match p.ptype with
  | .line => [.line (p.x, p.y)]
  | .curve => [.cubic (outPos prev) (inPos p) (p.x, p.y)]
  | .qcurve => [.quad (outPos prev) (p.x, p.y)]
  | _ => []

def segsOf : Point PD → List (Point PD) → List SkSeg
  | _, [] => []
  | prev, p :: l => segOf prev p ++ segsOf p l

theorem skSegment_segOf (prev p : Point PD) : skSegment id id prev p = (segOf prev p).map SkSeg.el := by
  unfold skSegment segOf
  cases p.ptype <;> rfl

theorem skSegments_segsOf (l : List (Point PD)) : ∀ prev, skSegments id id prev l = (segsOf prev l).map SkSeg.el := by
  induction l with
  | nil => intro prev; rfl
  | cons p l ih =>
    intro prev
    rw [skSegments, segsOf, List.map_append, ih, skSegment_segOf]

/-- The contour of a path made from a contour. -/
def skContourOf (p : Point PD) (l : List (Point PD)) : SkContour :=
  ⟨(p.x, p.y), segsOf p l ++ if p.ptype = .move ∨ p.ptype = .line then [] else segOf (l.getLastD p) p, decide (p.ptype ≠ .move)⟩

theorem toSkiaPath_els (p : Point PD) (l : List (Point PD)) : toSkiaPath id id (p :: l) = some (skContourOf p l).els := by
  simp only [toSkiaPath, skContourOf, SkContour.els, skClosing]
  rw [skSegments_segsOf]
  by_cases hm : p.ptype = .move
  · simp [hm]
  · by_cases hl : p.ptype = .line
    · simp [hl]
    · simp [hm, hl, skSegment_segOf]

theorem strokesFrom_append (conic : ConicToQuads) (l k : List SkSeg) : ∀ s, strokesFrom conic s (l ++ k) = strokesFrom conic s l ++ strokesFrom conic (penAt s l) k := by
  induction l with
  | nil => intro s; rfl
  | cons g l ih =>
    intro s
    rw [List.cons_append, strokesFrom, ih, strokesFrom, penAt, List.append_assoc]

theorem penAt_append (l k : List SkSeg) : ∀ s, penAt s (l ++ k) = penAt (penAt s l) k := by
  induction l with
  | nil => intro s; rfl
  | cons g l ih => intro s; rw [List.cons_append, penAt, ih, penAt]

/-! ## Lines and curves -/

theorem segsOf_lc (conic : ConicToQuads) (l : List (Point PD)) : ∀ p : Point PD, (∀ x ∈ l, x.ptype = .line ∨ x.ptype = .curve) →
    strokesFrom conic (p.x, p.y) (segsOf p l) = ((p :: l).zip l).map wantedStroke ∧
    penAt (p.x, p.y) (segsOf p l) = ((l.getLastD p).x, (l.getLastD p).y) := by
  induction l with
  | nil => intro p _; exact ⟨rfl, rfl⟩
  | cons q l ih =>
    intro p h
    obtain ⟨h1, h2⟩ := ih q fun x hx => h x (List.mem_cons_of_mem _ hx)
    rw [segsOf, List.getLastD_cons]
    rcases h q (List.mem_cons_self ..) with hq | hq
    · constructor
      · simp only [segOf, hq, List.singleton_append, strokesFrom, SkSeg.strokes, SkSeg.stop, h1, List.zip_cons_cons, List.map_cons, wantedStroke, reduceCtorEq, if_false]
      · simp only [segOf, hq, List.singleton_append, penAt, SkSeg.stop, h2]
    · constructor
      · simp only [segOf, hq, List.singleton_append, strokesFrom, SkSeg.strokes, SkSeg.stop, h1, List.zip_cons_cons, List.map_cons, wantedStroke, if_true]
      · simp only [segOf, hq, List.singleton_append, penAt, SkSeg.stop, h2]

theorem closedPairs_any (p : Point PD) (l : List (Point PD)) : closedPairs (p :: l) = (p :: l).zip l ++ [(l.getLastD p, p)] := by
  cases l with
  | nil => rfl
  | cons q l =>
    rw [closedPairs_split]
    congr 3

/-- **C110.** The Skia path of a contour of lines and curves is one contour, which draws exactly the segments of
the contour, each with its control points; it is open if the contour begins with a move point and closed otherwise.
Only a line that closes the contour without going anywhere is not drawn. -/
theorem C110_draws (conic : ConicToQuads) (p : Point PD) (l : Contour PD) (hp : p.ptype = .move ∨ p.ptype = .line ∨ p.ptype = .curve)
    (h : ∀ x ∈ l, x.ptype = .line ∨ x.ptype = .curve) :
    ∃ c : SkContour, toSkiaPath id id (p :: l) = some c.els ∧ c.closed = !openContour (p :: l) ∧
      c.strokes conic = if p.ptype = .line ∧ sameOrNaN ((l.getLastD p).x, (l.getLastD p).y) (p.x, p.y) then (wantedStrokes (p :: l)).dropLast
        else wantedStrokes (p :: l) := by
  refine ⟨skContourOf p l, toSkiaPath_els p l, ?_, ?_⟩
  · unfold skContourOf openContour
    simp
  obtain ⟨h1, h2⟩ := segsOf_lc conic l p h
  unfold SkContour.strokes wantedStrokes
  rw [stop_eq]
  unfold skContourOf openContour
  rcases hp with hp | hp | hp
  · simp only [hp, true_or, if_true, List.append_nil, h1, ne_eq, not_true_eq_false, decide_false, Bool.false_eq_true, false_and, if_false, List.head?_cons,
      Option.any_some, decide_true, reduceCtorEq]
    rfl
  · simp only [hp, or_true, if_true, List.append_nil, h1, h2, ne_eq, reduceCtorEq, not_false_eq_true, decide_true, true_and, List.head?_cons,
      Option.any_some, decide_false, Bool.false_eq_true, if_false, closedPairs_any, List.map_append, List.map_cons, List.map_nil, wantedStroke]
    by_cases hs : sameOrNaN ((l.getLastD p).x, (l.getLastD p).y) (p.x, p.y)
    · rw [if_pos hs, if_neg (not_not.2 hs), List.append_nil, List.dropLast_concat]
    · rw [if_neg hs, if_pos hs]
  · have hc : segOf (l.getLastD p) p = [.cubic (outPos (l.getLastD p)) (inPos p) (p.x, p.y)] := by unfold segOf; rw [hp]
    have hself : sameOrNaN (p.x, p.y) (p.x, p.y) := (needsLine_iff _ _).1 (needsLine_self _)
    simp only [hp, reduceCtorEq, or_self, if_false, false_and, strokesFrom_append, penAt_append, h1, h2, hc, strokesFrom, SkSeg.strokes, penAt, SkSeg.stop,
      List.head?_cons, Option.any_some, decide_false, Bool.false_eq_true, closedPairs_any, List.map_append, List.map_cons, List.map_nil, wantedStroke, if_true,
      List.append_nil]
    simp [hself]

/-- Contours that meet the hypotheses: closed by a line, closed by a curve, and open. -/
example : ∃ p q r : Point Unit, p.ptype = .line ∧ (∀ x ∈ [q, r], x.ptype = .line ∨ x.ptype = .curve) ∧
    ¬ sameOrNaN (r.x, r.y) (p.x, p.y) ∧ (wantedStrokes [p, q, r]).length = 3 ∧ (wantedStrokes [{ p with ptype := .move }, q, r]).length = 2 := by
  refine ⟨Sample.pt .line 0 0, Sample.cv 10 0 10 5 5 10, Sample.pt .line 10 10, rfl, ?_, ?_, rfl, rfl⟩
  · decide +kernel
  · decide +kernel

/-! ## Quadratic curves -/

/-- The off-curve point that is left at the end. -/
def leftOver : Option GlifPoint → List GlifPoint → Option GlifPoint
  | st, [] => st
  | _, g :: l => leftOver (if g.ptype = .offcurve then some g else none) l

theorem leftOver_eq (l : List GlifPoint) : ∀ st, leftOver st l = match l.getLast? with
    | none => st
    | some g => if g.ptype = .offcurve then some g else none := by
  induction l with
  | nil => intro st; rfl
  | cons g l ih =>
    intro st
    rw [leftOver, ih, List.getLast?_cons]
    cases l.getLast? <;> rfl

/-- Reading the rest of a quadratic contour, after the on-curve point `z`: the points that are added draw the
curves, but for the one that closes the contour. -/
theorem quad_walk (conic : ConicToQuads) (mid : IOF → IOF → IOF) (first : SkPoint) (gc : List GlifPoint) : ∀ (c : Contour PD) (z : Point PD) (st : Option GlifPoint),
    (∀ g ∈ gc, g.ptype = .qcurve ∨ g.ptype = .offcurve) → z.a = .colocated → (∀ h ∈ st, h.ptype = .offcurve) →
    ∃ more : List (Point PD),
      gc.foldl (quadStep mid) (c ++ [z], st.toList) = (c ++ (z :: more), (leftOver st gc).toList) ∧
      (more.getLastD z).a = .colocated ∧ penAt (z.x, z.y) (segsOf z more) = ((more.getLastD z).x, (more.getLastD z).y) ∧
      quadStrokes mid first (z.x, z.y) st gc =
        strokesFrom conic (z.x, z.y) (segsOf z more) ++ quadStrokes mid first ((more.getLastD z).x, (more.getLastD z).y) (leftOver st gc) [] := by
  induction gc with
  | nil => intro c z st _ hz _; exact ⟨[], rfl, hz, rfl, rfl⟩
  | cons g gc ih =>
    intro c z st hgc hz hst
    have htl : ∀ g ∈ gc, g.ptype = .qcurve ∨ g.ptype = .offcurve := fun x hx => hgc x (List.mem_cons_of_mem _ hx)
    have hseg0 : ∀ q : Point PD, q.ptype = .qcurve → segOf z q = [.quad (z.x, z.y) (q.x, q.y)] := by
      intro q hq
      simp [segOf, hq, outPos, hz]
    have hoff : ∀ (h : GlifPoint) (q : Point PD), h.ptype = .offcurve → q.ptype = .qcurve →
        segOf z (Point.ofGp h) = [] ∧ segOf (Point.ofGp h) q = [.quad (placeInFile h) (q.x, q.y)] := by
      intro h q hh hq
      simp [segOf, hq, outPos, Point.ofGp, hh, placeInFile]
    rw [List.foldl_cons, leftOver]
    cases st with
    | none =>
      rcases hgc g (List.mem_cons_self ..) with hg | hg
      · have hstep : quadStep mid (c ++ [z], (none : Option GlifPoint).toList) g = (c ++ [z] ++ [Point.ofGp g], (none : Option GlifPoint).toList) := by
          simp [quadStep, hg]
        obtain ⟨more, h1, h2, h3, h4⟩ := ih (c ++ [z]) (Point.ofGp g) none htl rfl (fun h hh => nomatch hh)
        refine ⟨Point.ofGp g :: more, ?_, ?_, ?_, ?_⟩
        · rw [hstep, h1, if_neg (by rw [hg]; decide), List.append_assoc]
          rfl
        · rw [List.getLastD_cons]; exact h2
        · rw [List.getLastD_cons, segsOf, hseg0 _ hg]; exact h3
        · rw [List.getLastD_cons, segsOf, hseg0 _ hg, quadStrokes, if_neg (by rw [hg]; decide), if_neg (by rw [hg]; decide)]
          exact congrArg (List.cons _) h4
      · have hstep : quadStep mid (c ++ [z], (none : Option GlifPoint).toList) g = (c ++ [z], (some g).toList) := by
          simp [quadStep, hg]
        obtain ⟨more, h1, h2, h3, h4⟩ := ih c z (some g) htl hz (fun h hh => by cases hh; exact hg)
        refine ⟨more, ?_, h2, h3, ?_⟩
        · rw [hstep, if_pos hg, h1]
        · rw [if_pos hg, quadStrokes, if_pos hg, h4]
    | some h =>
      have hh := hst h rfl
      rcases hgc g (List.mem_cons_self ..) with hg | hg
      · have hstep : quadStep mid (c ++ [z], (some h).toList) g = (c ++ [z] ++ [Point.ofGp h] ++ [Point.ofGp g], (none : Option GlifPoint).toList) := by
          simp [quadStep, hg]
        obtain ⟨more, h1, h2, h3, h4⟩ := ih (c ++ [z] ++ [Point.ofGp h]) (Point.ofGp g) none htl rfl (fun h hh => nomatch hh)
        obtain ⟨s1, s2⟩ := hoff h (Point.ofGp g) hh hg
        refine ⟨Point.ofGp h :: Point.ofGp g :: more, ?_, ?_, ?_, ?_⟩
        · rw [hstep, h1, if_neg (by rw [hg]; decide), List.append_assoc, List.append_assoc]
          rfl
        · rw [List.getLastD_cons, List.getLastD_cons]; exact h2
        · rw [List.getLastD_cons, List.getLastD_cons, segsOf, segsOf, s1, s2]; exact h3
        · rw [List.getLastD_cons, List.getLastD_cons, segsOf, segsOf, s1, s2, quadStrokes, if_neg (by rw [hg]; decide), if_neg (by rw [hg]; decide)]
          exact congrArg (List.cons _) h4
      · have hstep : quadStep mid (c ++ [z], (some h).toList) g = (c ++ [z] ++ [Point.ofGp h] ++
            [({ x := (mid h.x g.x).toF32, y := (mid h.y g.y).toF32, ptype := .qcurve, name := g.name } : Point PD)], (some g).toList) := by
          simp [quadStep, hg]
        obtain ⟨more, h1, h2, h3, h4⟩ := ih (c ++ [z] ++ [Point.ofGp h]) { x := (mid h.x g.x).toF32, y := (mid h.y g.y).toF32, ptype := .qcurve, name := g.name }
          (some g) htl rfl (fun h hh => by cases hh; exact hg)
        obtain ⟨s1, s2⟩ := hoff h { x := (mid h.x g.x).toF32, y := (mid h.y g.y).toF32, ptype := .qcurve, name := g.name } hh rfl
        refine ⟨Point.ofGp h :: { x := (mid h.x g.x).toF32, y := (mid h.y g.y).toF32, ptype := .qcurve, name := g.name } :: more, ?_, ?_, ?_, ?_⟩
        · rw [hstep, h1, if_pos hg, List.append_assoc, List.append_assoc]
          rfl
        · rw [List.getLastD_cons, List.getLastD_cons]; exact h2
        · rw [List.getLastD_cons, List.getLastD_cons, segsOf, segsOf, s1, s2]; exact h3
        · rw [List.getLastD_cons, List.getLastD_cons, segsOf, segsOf, s1, s2, quadStrokes, if_pos hg, if_pos hg]
          exact congrArg (List.cons _) h4

/-- **C111**, exactly.  A contour of quadratic curves in a file, which begins with an on-curve point, is read as a
contour whose Skia path is one closed contour.  It draws the curves of the file if and only if the file does not
end the contour with an off-curve point, or that point is where the point half-way from it to the first point is. -/
theorem C111_exact (conic : ConicToQuads) (mid : IOF → IOF → IOF) (g : GlifPoint) (l : List GlifPoint) (hg : g.ptype = .qcurve)
    (h : ∀ x ∈ l, x.ptype = .qcurve ∨ x.ptype = .offcurve) :
    ∃ (d : Contour PD) (c : SkContour), contourOfGlif mid (g :: l) = .ok d ∧ toSkiaPath id id d = some c.els ∧ c.closed = true ∧
      (c.strokes conic = quadStrokes mid (placeInFile g) (placeInFile g) none l ↔
        ∀ z ∈ l.getLast?, z.ptype = .offcurve → ((mid z.x (IOF.ofF32 g.x.toF32)).toF32, (mid z.y (IOF.ofF32 g.y.toF32)).toF32) = placeInFile z) := by
  have hg0 : quadStep mid (([], []) : Contour PD × List GlifPoint) g = ([] ++ [Point.ofGp g], (none : Option GlifPoint).toList) := by
    simp [quadStep, hg]
  obtain ⟨more, h1, h2, h3, h4⟩ := quad_walk (PD := PD) conic mid (placeInFile g) l [] (Point.ofGp g) none h rfl (fun h hh => nomatch hh)
  have hself : sameOrNaN (placeInFile g) (placeInFile g) := (needsLine_iff _ _).1 (needsLine_self _)
  have hlo := leftOver_eq l none
  have hcond : (∀ z ∈ l.getLast?, z.ptype = .offcurve → ((mid z.x (IOF.ofF32 g.x.toF32)).toF32, (mid z.y (IOF.ofF32 g.y.toF32)).toF32) = placeInFile z) ↔
      ∀ z ∈ leftOver none l, ((mid z.x (IOF.ofF32 g.x.toF32)).toF32, (mid z.y (IOF.ofF32 g.y.toF32)).toF32) = placeInFile z := by
    rw [hlo]
    cases hl : l.getLast? with
    | none => simp
    | some z =>
      by_cases hz : z.ptype = .offcurve <;> simp [hz]
  rw [hcond]
  have hfold : (g :: l).foldl (quadStep mid) (([], []) : Contour PD × List GlifPoint) = (Point.ofGp g :: more, (leftOver none l).toList) := by
    rw [List.foldl_cons, hg0, h1]
    rfl
  have hnm : (Point.ofGp g : Point PD).ptype = .qcurve := hg
  have hread : contourOfGlif mid (g :: l) = .ok (quadraticContour mid (g :: l) : Contour PD) := by
    simp only [contourOfGlif, hg]
  have hpath : ∀ k : List (Point PD), (skContourOf (Point.ofGp g) k).strokes conic =
      strokesFrom conic (placeInFile g) (segsOf (Point.ofGp g) k) ++
        [.quad (penAt (placeInFile g) (segsOf (Point.ofGp g) k)) (outPos (k.getLastD (Point.ofGp g))) (placeInFile g)] := by
    intro k
    unfold SkContour.strokes
    rw [stop_eq]
    have hs : segOf (k.getLastD (Point.ofGp g)) (Point.ofGp g) = [.quad (outPos (k.getLastD (Point.ofGp g))) (placeInFile g)] := by
      simp [segOf, Point.ofGp, placeInFile, hg]
    have h0 : skContourOf (Point.ofGp g) k = ⟨placeInFile g, segsOf (Point.ofGp g) k ++ [.quad (outPos (k.getLastD (Point.ofGp g))) (placeInFile g)], true⟩ := by
      unfold skContourOf
      rw [hs, hnm]
      rfl
    rw [h0]
    simp only [penAt_append, penAt, SkSeg.stop, strokesFrom_append, strokesFrom, SkSeg.strokes, List.append_nil]
    simp [hself]
  have hclosed : ∀ k : List (Point PD), (skContourOf (Point.ofGp g) k).closed = true := by
    intro k
    simp [skContourOf, hnm]
  have h4' := h4
  have hp : (((Point.ofGp g : Point PD).x, (Point.ofGp g : Point PD).y)) = placeInFile g := rfl
  rw [hp] at h3 h4'
  cases hst : leftOver none l with
  | none =>
    have hq : (quadraticContour mid (g :: l) : Contour PD) = Point.ofGp g :: more := by
      unfold quadraticContour
      simp only [hfold, hst, Option.toList]
    refine ⟨_, skContourOf (Point.ofGp g) more, hread, by rw [hq]; exact toSkiaPath_els _ _, hclosed _, ?_⟩
    rw [hst] at h4'
    rw [hpath, h4', h3, quadStrokes]
    have : outPos (more.getLastD (Point.ofGp g)) = ((more.getLastD (Point.ofGp g)).x, (more.getLastD (Point.ofGp g)).y) := by
      simp only [outPos, h2]
    rw [this]
    simp
  | some z =>
    have hz : z.ptype = .offcurve := by
      rw [hlo] at hst
      cases hl : l.getLast? with
      | none => rw [hl] at hst; cases hst
      | some w =>
        rw [hl] at hst
        by_cases hw : w.ptype = .offcurve
        · simp only [hw, if_true, Option.some.injEq] at hst
          rw [← hst]; exact hw
        · simp only [hw, if_false] at hst
          cases hst
    have hq : (quadraticContour mid (g :: l) : Contour PD) = Point.ofGp g :: (more ++ [Point.ofGp z,
        { x := (mid z.x (IOF.ofF32 g.x.toF32)).toF32, y := (mid z.y (IOF.ofF32 g.y.toF32)).toF32, ptype := .qclose }]) := by
      unfold quadraticContour
      simp only [hfold, hst, Option.toList]
      simp [Point.ofGp, hg]
    refine ⟨_, skContourOf (Point.ofGp g) _, hread, by rw [hq]; exact toSkiaPath_els _ _, hclosed _, ?_⟩
    rw [hst] at h4'
    have hsegs : ∀ (k : List (Point PD)) (p : Point PD), segsOf p (k ++ [Point.ofGp z,
        { x := (mid z.x (IOF.ofF32 g.x.toF32)).toF32, y := (mid z.y (IOF.ofF32 g.y.toF32)).toF32, ptype := .qclose }]) = segsOf p k := by
      intro k
      induction k with
      | nil => intro p; simp [segsOf, segOf, Point.ofGp, hz]
      | cons a k ih => intro p; rw [List.cons_append, segsOf, ih, segsOf]
    rw [hpath, hsegs, h4', h3, quadStrokes, List.append_cancel_left_eq]
    have hl : (more ++ [Point.ofGp z, ({ x := (mid z.x (IOF.ofF32 g.x.toF32)).toF32, y := (mid z.y (IOF.ofF32 g.y.toF32)).toF32, ptype := .qclose } : Point PD)]).getLastD (Point.ofGp g) =
        { x := (mid z.x (IOF.ofF32 g.x.toF32)).toF32, y := (mid z.y (IOF.ofF32 g.y.toF32)).toF32, ptype := .qclose } := by
      rw [List.getLastD_eq_getLast?, List.getLast?_append]
      rfl
    rw [hl]
    simp [outPos]

/-- **C111**, as far as it holds: the contour ends with an on-curve point. -/
theorem C111_partial (conic : ConicToQuads) (mid : IOF → IOF → IOF) (g : GlifPoint) (l : List GlifPoint) (hg : g.ptype = .qcurve)
    (h : ∀ x ∈ l, x.ptype = .qcurve ∨ x.ptype = .offcurve) (he : ∀ z ∈ l.getLast?, z.ptype = .qcurve) :
    ∃ (d : Contour PD) (c : SkContour), contourOfGlif mid (g :: l) = .ok d ∧ toSkiaPath id id d = some c.els ∧ c.closed = true ∧
      c.strokes conic = quadStrokes mid (placeInFile g) (placeInFile g) none l := by
  obtain ⟨d, c, h1, h2, h3, h4⟩ := C111_exact (PD := PD) conic mid g l hg h
  refine ⟨d, c, h1, h2, h3, h4.2 fun z hz ho => ?_⟩
  rw [he z hz] at ho
  cases ho

/-- A point of a file with whole coordinates. -/
def filePt (t : PointType) (x y : Int) (hx : i32ok x = true := by decide) (hy : i32ok y = true := by decide) : GlifPoint :=
  { x := .int x hx, y := .int y hy, ptype := t }

/-- A contour of two curves, as files have it: on-curve and off-curve points in turn. -/
def twoArcs : List GlifPoint := [filePt .offcurve 0 10, filePt .qcurve 10 10, filePt .offcurve 10 0]

/-- **C111 is false of the code**: the curve that closes a contour is drawn with the wrong control point, half-way to
the first point from where it should be. -/
theorem C111_false (conic : ConicToQuads) (mid : IOF → IOF → IOF) (hmid : (mid (.int 10 (by decide)) (IOF.ofF32 Flt.zero)).toF32 = Flt.ofInt b32 5) :
    ∃ (g : GlifPoint) (l : List GlifPoint) (d : Contour Unit) (c : SkContour), contourOfGlif mid (g :: l) = .ok d ∧ toSkiaPath id id d = some c.els ∧
      c.strokes conic ≠ quadStrokes mid (placeInFile g) (placeInFile g) none l := by
  obtain ⟨d, c, h1, h2, -, h4⟩ := C111_exact (PD := Unit) conic mid (filePt .qcurve 0 0) twoArcs rfl (by decide)
  refine ⟨_, _, d, c, h1, h2, fun h => ?_⟩
  have := h4.1 h (filePt .offcurve 10 0) rfl rfl
  have h0 : IOF.toF32 (filePt .qcurve 0 0).x = Flt.zero := by decide +kernel
  rw [h0] at this
  have h5 : Flt.ofInt b32 5 = IOF.toF32 (.int 10 (by decide)) := hmid.symm.trans (congrArg Prod.fst this)
  revert h5
  decide +kernel

/-- A contour that meets the hypotheses of `C111_partial`, with an implied point. -/
example : ∃ (g : GlifPoint) (l : List GlifPoint), g.ptype = .qcurve ∧ (∀ x ∈ l, x.ptype = .qcurve ∨ x.ptype = .offcurve) ∧
    (∀ z ∈ l.getLast?, z.ptype = .qcurve) ∧ ∀ mid, (quadStrokes mid (placeInFile g) (placeInFile g) none l).length = 3 :=
  ⟨filePt .qcurve 0 0, [filePt .offcurve 0 10, filePt .offcurve 10 10, filePt .qcurve 10 0], rfl, by decide, by decide, fun _ => rfl⟩

end GP
