import Verif.Spec.DocumentDraw
import Verif.Props.SkiaFile
import Verif.Props.ReadPoints
/-!
# What the contours of a document draw once it is read (C115)
-/
open Fl
namespace GP
open Spec
variable {PD D : Type}

theorem contourElement_read {e : Element} {gc : GlifContour} (h : readContour e = .ok gc) : ContourElement e gc :=
  (contour_read h).imp fun _ _ h => readPoint_says h

open Classical in
/-- **C115, what holds.** Every contour of the document that is not dropped has, in order, a contour of the glyph,
whose Skia path draws what the `<point>` elements say: lines and cubic curves if no segment has exactly one off-curve
point, quadratic curves if the last point is on-curve.  Missing: the other contours, which may be drawn differently
(`C115_false`, `C112_exact`, `C111_exact`). -/
theorem C115_partial (conic : ConicToQuads) (mid : IOF → IOF → IOF) (pio : PlistIO D) (ped : Pedantry) (root : Element) (g : Glif PD D)
    (h : readGlif mid pio ped root = .ok g) :
    List.Forall₂ (fun el c => ∃ gc, ContourElement el gc ∧ DrawsCubic conic gc c ∧ DrawsQuadratic conic mid gc c)
      ((contoursOf root).filter fun e => ¬ Dropped e) (g.outline.getD []) := by
  refine (C08_file mid pio ped root g h).imp fun el c hc => ?_
  obtain ⟨-, gc, hr, hc⟩ := hc
  refine ⟨gc, contourElement_read hr, ?_, ?_⟩
  · rintro p gs back rfl hp hq
    obtain ⟨d, k, h1, h2, h3, h4⟩ := C112_partial (PD := PD) conic mid p gs back hp.first hp.ons
      (fun s hs => ⟨(hp.offs s hs).1, by have := (hp.offs s hs).2; have := hq.1 s hs; omega⟩)
      ⟨hp.back.1, by have := hp.back.2; have := hq.2; omega⟩ hp.more
    rw [hc, Out.ok.injEq] at h1
    subst h1
    exact ⟨k, h2, h3, h4⟩
  · rintro p l rfl hp hl he
    obtain ⟨d, k, h1, h2, h3, h4⟩ := C111_partial (PD := PD) conic mid p l hp hl he
    rw [hc, Out.ok.injEq] at h1
    subst h1
    exact ⟨k, h2, by simp [h3], by rw [h4]⟩

theorem skSegs_inj : ∀ (l m : List SkSeg) (a b : Bool),
    l.map SkSeg.el ++ (if a then [.close] else []) = m.map SkSeg.el ++ (if b then [.close] else []) → l = m ∧ a = b
  | [], [], a, b => by cases a <;> cases b <;> simp
  | [], y :: m, a, b => by cases a <;> cases y <;> simp [SkSeg.el]
  | x :: l, [], a, b => by cases b <;> cases x <;> simp [SkSeg.el]
  | x :: l, y :: m, a, b => by
    intro h
    rw [List.map_cons, List.map_cons, List.cons_append, List.cons_append, List.cons.injEq] at h
    obtain ⟨h1, h2⟩ := skSegs_inj l m a b h.2
    refine ⟨?_, h2⟩
    rw [h1]
    have h3 := h.1
    cases x <;> cases y <;> simp_all [SkSeg.el]

/-- A path of one contour is so in one way. -/
theorem SkContour.els_inj {c d : SkContour} (h : c.els = d.els) : c = d := by
  obtain ⟨s, l, a⟩ := c
  obtain ⟨t, m, b⟩ := d
  unfold SkContour.els at h
  rw [List.cons_append, List.cons_append, List.cons.injEq] at h
  obtain ⟨h1, h2⟩ := skSegs_inj l m a b h.2
  have h3 := h.1
  simp_all

open Classical in
/-- **C115**, exactly.  Of the contours of the document that are not dropped, those of lines and curves (with two
off-curve points at most before each point) draw what the `<point>` elements say if and only if the curves with one
off-curve point are as well the cubic curves with that point and their end as control points; those of quadratic curves if
and only if they end with an on-curve point, or with one that is half-way to the start itself. -/
theorem C115_exact (conic : ConicToQuads) (mid : IOF → IOF → IOF) (pio : PlistIO D) (ped : Pedantry) (root : Element) (g : Glif PD D)
    (h : readGlif mid pio ped root = .ok g) :
    List.Forall₂ (fun el c => ∃ gc, ContourElement el gc ∧ DrawsCubicExactly conic gc c ∧ DrawsQuadraticExactly conic mid gc c)
      ((contoursOf root).filter fun e => ¬ Dropped e) (g.outline.getD []) := by
  refine (C08_file mid pio ped root g h).imp fun el c hc => ?_
  obtain ⟨-, gc, hr, hc⟩ := hc
  refine ⟨gc, contourElement_read hr, ?_, ?_⟩
  · rintro p gs back rfl hp
    obtain ⟨d, k, h1, h2, h3, h4⟩ := C112_exact (PD := PD) conic mid p gs back hp.first hp.ons hp.offs hp.back hp.more
    rw [hc, Out.ok.injEq] at h1
    subst h1
    refine Iff.trans ⟨?_, fun h => ⟨k, h2, h3, h⟩⟩ h4
    rintro ⟨k', h5, -, h6⟩
    rw [h2, Option.some.injEq] at h5
    rwa [← SkContour.els_inj h5] at h6
  · rintro p l rfl hp hl
    obtain ⟨d, k, h1, h2, h3, h4⟩ := C111_exact (PD := PD) conic mid p l hp hl
    rw [hc, Out.ok.injEq] at h1
    subst h1
    refine Iff.trans ⟨?_, fun h => ⟨k, h2, by simp [h3], h⟩⟩ h4
    rintro ⟨k', h5, -, h6⟩
    rw [h2, Option.some.injEq] at h5
    rwa [← SkContour.els_inj h5] at h6

/-- C115 without its conditions is false: of a document with a curve that has one off-curve point, a quadratic one,
the path has another curve. -/
theorem C115_false (conic : ConicToQuads) (mid : IOF → IOF → IOF) (pio : PlistIO D) :
    ∃ root, ∃ g : Glif PD D, readGlif mid pio {} root = .ok g ∧
      ∃ el c p gs, contoursOf root = [el] ∧ g.outline = some [c] ∧ ContourElement el (p :: gs.flatMap (fun s => s.1 ++ [s.2]) ++ []) ∧
        CubicPoints 2 p gs [] ∧ ¬ Draws conic c (p.ptype ≠ .move) (fileStrokes p gs []) := by
  have n0 : IOF.parse "0".toList = some (.int 0) := by decide +kernel
  have n30 : IOF.parse "30".toList = some (.int 30) := by decide +kernel
  have hn0 : IsNumber "0".toList := (C79_accepted _).1 ⟨_, n0⟩
  have hn30 : IsNumber "30".toList := (C79_accepted _).1 ⟨_, n30⟩
  let e0 : Element := ⟨"point", [("x", "0".toList), ("y", "0".toList), ("type", "move".toList)], []⟩
  let e1 : Element := ⟨"point", [("x", "30".toList), ("y", "0".toList)], []⟩
  let e2 : Element := ⟨"point", [("x", "30".toList), ("y", "30".toList), ("type", "curve".toList)], []⟩
  let ps := [Sample.pe "move" "0" "0", Sample.offe "30" "0", Sample.pe "curve" "30" "30"]
  have hps : named "point" ps = [e0, e1, e2] := rfl
  have ha : Acceptable {} (Sample.doc ps) := by
    apply doc_acceptable
    intro p hp
    rw [hps] at hp
    simp only [List.mem_cons, List.not_mem_nil, or_false] at hp
    rcases hp with rfl | rfl | rfl
    · exact ⟨⟨_, rfl, hn0⟩, ⟨_, rfl, hn0⟩⟩
    · exact ⟨⟨_, rfl, hn30⟩, ⟨_, rfl, hn0⟩⟩
    · exact ⟨⟨_, rfl, hn30⟩, ⟨_, rfl, hn30⟩⟩
  have hco : contoursOf (Sample.doc ps) = [⟨"contour", [], ps⟩] := rfl
  obtain ⟨g, hg⟩ := (read_iff (PD := PD) mid pio {} (Sample.doc ps)).2 ⟨ha, by
    rintro ⟨c, hc, hq⟩
    rw [hco, List.mem_singleton] at hc
    subst hc
    obtain ⟨p, ps', e, _, q, hq, ht⟩ := hq
    simp only [hps] at e
    cases e
    simp only [List.mem_cons, List.not_mem_nil, or_false] at hq
    rcases hq with rfl | rfl <;> revert ht <;> unfold OfType <;> decide⟩
  have onT : ∀ e ∈ [e0, e2], ¬ IsOff e := by
    intro e he h
    simp only [List.mem_cons, List.not_mem_nil, or_false] at he
    rcases he with rfl | rfl
    · exact h _ rfl (by decide)
    · exact h _ rfl (by decide)
  have hnd : ¬ Dropped ⟨"contour", [], ps⟩ := by
    unfold Dropped
    simp only [hps]
    rintro (h | ⟨-, h⟩)
    · exact onT e0 (by simp) h
    · exact onT e2 (by simp) (h e2 (by simp))
  have hm := C08_file mid pio {} _ g hg
  rw [hco, List.filter_cons_of_pos (by simpa using hnd), List.filter_nil, List.forall₂_cons_left_iff] at hm
  obtain ⟨c, l, ⟨-, gc, hgc, hc⟩, hl, ho⟩ := hm
  cases hl
  have ho' : g.outline = some [c] := by
    cases hgo : g.outline with
    | none => rw [hgo] at ho; cases ho
    | some o => rw [hgo] at ho; exact congrArg some ho
  have hgc' : readContour ⟨"contour", [], ps⟩ = .ok [filePt .move 0 0, filePt .offcurve 30 0, filePt .curve 30 30] := by decide +kernel
  rw [hgc, Out.ok.injEq] at hgc'
  subst hgc'
  obtain ⟨d, k, h1, h2, h3, h4⟩ := C112_exact (PD := PD) conic mid (filePt .move 0 0) [([filePt .offcurve 30 0], filePt .curve 30 30)] []
    (Or.inl rfl) (by decide) (by decide) (by decide) (by decide)
  refine ⟨_, g, hg, _, c, filePt .move 0 0, [([filePt .offcurve 30 0], filePt .curve 30 30)], hco, ho', contourElement_read hgc,
    ⟨Or.inl rfl, by decide, by decide, by decide, by decide⟩, ?_⟩
  rintro ⟨k', h5, -, h6⟩
  have hcd : c = d := by
    have := hc.symm.trans h1
    rwa [Out.ok.injEq] at this
  subst hcd
  rw [h2, Option.some.injEq] at h5
  rw [← SkContour.els_inj h5] at h6
  have := h4.1 h6 (filePt .move 0 0, [filePt .offcurve 30 0], filePt .curve 30 30) (List.mem_cons_self ..) (filePt .offcurve 30 0) ⟨rfl, rfl⟩
  revert this
  decide +kernel

/-- Points that meet the conditions of `C115_partial`: a closed contour of a line, a curve, and a curve back; and one of
quadratic curves, with an implied point. -/
example : CubicPoints 2 (filePt .curve 0 0) [([], filePt .line 10 0), ([filePt .offcurve 15 0, filePt .offcurve 20 5], filePt .curve 20 10)]
      [filePt .offcurve 20 20, filePt .offcurve 0 20] ∧
    NoQuadratic [([], filePt .line 10 0), ([filePt .offcurve 15 0, filePt .offcurve 20 5], filePt .curve 20 10)]
      [filePt .offcurve 20 20, filePt .offcurve 0 20] ∧
    (∀ z ∈ [filePt .offcurve 0 10, filePt .offcurve 10 10, filePt .qcurve 10 0].getLast?, z.ptype = .qcurve) :=
  ⟨⟨Or.inr (Or.inr rfl), by decide, by decide, by decide, nofun⟩, ⟨by decide, by decide⟩, by decide⟩

end GP
