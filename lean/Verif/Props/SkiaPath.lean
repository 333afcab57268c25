import Verif.Props.SkiaOpen
import Verif.Lemmas.SkiaPath
/-!
# Outlines from any Skia path (C67, C68)
-/
open Fl
namespace GP
variable {PD : Type}
open Spec

theorem cubicPt_ne (conic : ConicToQuads) (x : SkPoint × SkSeg) : cubicPt conic x ≠ [] := by
  obtain ⟨s, g⟩ := x
  cases g <;> simp [cubicPt]

theorem flatMap_cubicPt_nil (conic : ConicToQuads) (l : List (SkPoint × SkSeg)) (h : l.flatMap (cubicPt conic) = []) : l = [] := by
  cases l with
  | nil => rfl
  | cons x l =>
    rw [List.flatMap_cons, List.append_eq_nil_iff] at h
    exact absurd h.1 (cubicPt_ne conic x)

theorem withStarts_nil {s : SkPoint} {l : List SkSeg} (h : withStarts s l = []) : l = [] := by
  cases l with
  | nil => rfl
  | cons g l => simp [withStarts] at h

/-- A closed contour comes out as a single curve exactly if it is a loop. -/
theorem single_curve_iff (conic : ConicToQuads) (c : SkContour) (hc : c.closed = true) :
    (∃ x, cubicsOf conic c = [x] ∧ x.ptype = .curve) ↔ c.isLoop := by
  have hcub : cubicsOf conic c = (allSegs c).flatMap (cubicPt conic) := by simp [cubicsOf, hc]
  rw [hcub]
  have hall : allSegs c = withStarts c.start c.segs ++
      if sameOrNaN (penAt c.start c.segs) c.start then [] else [(penAt c.start c.segs, .line c.start)] := by
    unfold allSegs
    by_cases h : sameOrNaN (penAt c.start c.segs) c.start <;> simp [hc, h]
  constructor
  · rintro ⟨x, hx, ht⟩
    -- one element comes from one segment
    obtain ⟨y, hy⟩ : ∃ y, allSegs c = [y] := by
      match ha : allSegs c with
      | [] => rw [ha] at hx; simp at hx
      | [y] => exact ⟨y, rfl⟩
      | y :: z :: l =>
        rw [ha, List.flatMap_cons, List.flatMap_cons] at hx
        have h1 := List.length_pos_iff.2 (cubicPt_ne conic y)
        have h2 := List.length_pos_iff.2 (cubicPt_ne conic z)
        have := congrArg List.length hx
        simp only [List.length_append, List.length_singleton] at this
        omega
    rw [hy] at hx hall
    have hx' : cubicPt conic y = [x] := by simpa using hx
    by_cases hs : sameOrNaN (penAt c.start c.segs) c.start
    · rw [if_pos hs, List.append_nil] at hall
      match hg : c.segs with
      | [] => rw [hg] at hall; simp [withStarts] at hall
      | g :: h :: l => rw [hg] at hall; simp [withStarts] at hall
      | [g] =>
        rw [hg] at hall hs
        simp only [withStarts, List.cons.injEq, and_true] at hall
        subst hall
        refine ⟨hc, ?_⟩
        cases g with
        | line p => simp only [cubicPt, List.cons.injEq, and_true] at hx'; subst hx'; cases ht
        | quad b p => exact Or.inr ⟨b, p, hg, hs⟩
        | conic b p w => simp [cubicPt] at hx'
        | cubic a b p => exact Or.inl ⟨a, b, p, hg, hs⟩
    · rw [if_neg hs] at hall
      have hl := congrArg List.length hall
      simp only [List.length_append, List.length_singleton] at hl
      have hn : withStarts c.start c.segs = [] := List.eq_nil_of_length_eq_zero (by omega)
      have hsegs := withStarts_nil hn
      rw [hsegs] at hs
      exact absurd ((needsLine_iff _ _).1 (needsLine_self c.start)) hs
  · rintro ⟨-, ⟨a, b, p, hg, hs⟩ | ⟨b, p, hg, hs⟩⟩
    · rw [hall, hg]
      have : sameOrNaN (penAt c.start [.cubic a b p]) c.start := hs
      rw [if_pos this]
      exact ⟨_, rfl, rfl⟩
    · rw [hall, hg]
      have : sameOrNaN (penAt c.start [.quad b p]) c.start := hs
      rw [if_pos this]
      exact ⟨_, rfl, rfl⟩

/-- The points of a contour as they come out, if its start is a number. -/
theorem fromSkContour_any (conic : ConicToQuads) (c : SkContour) (hne : (ptsOf c).isEmpty = false) :
    (c.isLoop ∧ fromSkContour (cubicsOf conic c) = (.panic : R (Contour PD))) ∨
    (¬ c.isLoop ∧ ∃ d : Contour PD, fromSkContour (cubicsOf conic c) = .ok d ∧
      ((∀ g ∈ c.segs, g.isConic = false) → (c.closed = false → c.start.1.isNaN = false ∧ c.start.2.isNaN = false) →
        d.map place = c.starts)) := by
  have hgood : ∀ p ∈ (allSegs c).flatMap (cubicPt conic), GoodPt p := by
    intro p hp
    obtain ⟨x, -, hx⟩ := List.mem_flatMap.1 hp
    exact good_cubicPt conic x p hx
  -- the beginnings of segments
  have hbeg : ∀ (l : List SkSeg) (s : SkPoint), (∀ g ∈ l, g.isConic = false) →
      ((withStarts s l).flatMap (cubicPt conic)).map SkPt.begin = (s :: l.map SkSeg.stop).dropLast := by
    intro l
    induction l with
    | nil => intro s _; rfl
    | cons g l ih =>
      intro s h
      rw [withStarts, List.flatMap_cons, List.map_append, ih g.stop fun k hk => h k (List.mem_cons_of_mem _ hk)]
      have hg : (cubicPt conic (s, g)).map SkPt.begin = [s] := by
        cases g with
        | line p => rfl
        | quad b p => rfl
        | conic b p w => exact absurd (h _ (List.mem_cons_self ..)) (by simp [SkSeg.isConic])
        | cubic a b p => rfl
      rw [hg]
      rfl
  cases hc : c.closed with
  | true =>
    have hcub : cubicsOf conic c = (allSegs c).flatMap (cubicPt conic) := by simp [cubicsOf, hc]
    have hall : allSegs c ≠ [] := by
      intro h
      simp [ptsOf, hc, h] at hne
    obtain ⟨x, l, hx⟩ : ∃ x l, (allSegs c).flatMap (cubicPt conic) = x :: l := by
      cases h : (allSegs c).flatMap (cubicPt conic) with
      | nil => exact absurd (flatMap_cubicPt_nil conic _ h) hall
      | cons x l => exact ⟨x, l, rfl⟩
    rw [hx] at hgood
    have hloop := single_curve_iff conic c hc
    rw [hcub, hx] at hloop ⊢
    rcases fromSkContour_closed (PD := PD) x l hgood with ⟨h1, h2, h3⟩ | ⟨h1, d, h2, h3⟩
    · exact Or.inl ⟨hloop.1 ⟨x, by rw [h1], h2⟩, h3⟩
    · refine Or.inr ⟨fun h => h1 ?_, d, h2, fun hcon _ => ?_⟩
      · obtain ⟨y, hy, ht⟩ := hloop.2 h
        rw [List.cons.injEq] at hy
        exact ⟨hy.2, hy.1 ▸ ht⟩
      · rw [h3, ← hx]
        unfold allSegs SkContour.starts
        rw [List.flatMap_append, List.map_append, hbeg _ _ hcon]
        have hpen : (c.start :: c.segs.map SkSeg.stop).getLastD c.start = penAt c.start c.segs := (penAt_eq _ _).symm
        simp only [hpen]
        by_cases hs : sameOrNaN (penAt c.start c.segs) c.start
        · simp [hc, hs]
        · simp only [hc, hs, not_false_eq_true, and_self, if_true, and_false, if_false]
          have : penAt c.start c.segs = (c.start :: c.segs.map SkSeg.stop).getLast (by simp) := by
            rw [← hpen, List.getLastD_eq_getLast?, List.getLast?_eq_some_getLast (by simp)]
            rfl
          show (c.start :: c.segs.map SkSeg.stop).dropLast ++ [penAt c.start c.segs] = _
          rw [this]
          exact List.dropLast_append_getLast _
  | false =>
    right
    refine ⟨fun h => (by have := h.1; rw [hc] at this; cases this), ?_⟩
    have hall : allSegs c = withStarts c.start c.segs := by simp [allSegs, hc]
    have hcub : cubicsOf conic c = moveItem c.start :: (withStarts c.start c.segs).flatMap (cubicPt conic) := by simp [cubicsOf, hc, hall]
    have hst : c.starts = c.start :: c.segs.map SkSeg.stop := by simp [SkContour.starts, hc]
    rw [hall] at hgood
    rw [hcub, hst]
    match hsg : c.segs with
    | [] =>
      refine ⟨_, fromSkContour_lone c.start, fun _ _ => rfl⟩
    | g :: gs =>
      rw [hsg] at hgood
      obtain ⟨x, l, hx⟩ : ∃ x l, (withStarts c.start (g :: gs)).flatMap (cubicPt conic) = x :: l := by
        cases h : (withStarts c.start (g :: gs)).flatMap (cubicPt conic) with
        | nil => exact absurd (flatMap_cubicPt_nil conic _ h) (by simp [withStarts])
        | cons x l => exact ⟨x, l, rfl⟩
      have hb := fun h => hbeg (g :: gs) c.start h
      rw [hx] at hb hgood ⊢
      obtain ⟨d, h1, h2⟩ := fromSkContour_move (PD := PD) c.start x l hgood
      refine ⟨d, h1, fun hcon hn => ?_⟩
      have hbc := hb hcon
      have hxb : x.begin = c.start := by
        rw [List.map_cons, List.map_cons, List.dropLast_cons_cons, List.cons.injEq] at hbc
        exact hbc.1
      have hend : (l.getLastD x).points.getLast? = some ((c.start :: (g :: gs).map SkSeg.stop).getLast (by simp)) := by
        -- the last element belongs to the last segment
        have key : ∀ (l : List SkSeg) (s : SkPoint) (g : SkSeg), (∀ k ∈ g :: l, k.isConic = false) →
            ∀ y ∈ ((withStarts s (g :: l)).flatMap (cubicPt conic)).getLast?, y.points.getLast? = some ((g :: l).getLast (by simp)).stop := by
          intro l
          induction l with
          | nil =>
            intro s g h y hy
            cases g with
            | line p => cases hy; rfl
            | quad b p => cases hy; rfl
            | conic b p w => exact absurd (h _ (List.mem_cons_self ..)) (by simp [SkSeg.isConic])
            | cubic a b p => cases hy; rfl
          | cons k l ih =>
            intro s g h y hy
            rw [withStarts, List.flatMap_cons, List.getLast?_append] at hy
            have hne : ((withStarts g.stop (k :: l)).flatMap (cubicPt conic)).getLast? ≠ none := by
              intro h
              rw [List.getLast?_eq_none_iff] at h
              exact absurd (flatMap_cubicPt_nil conic _ h) (by simp [withStarts])
            obtain ⟨w, hw⟩ := Option.ne_none_iff_exists'.1 hne
            rw [hw] at hy
            have hyw : w = y := by simpa using hy
            subst hyw
            exact ih g.stop k (fun j hj => h j (List.mem_cons_of_mem _ hj)) w hw
        have := key gs c.start g hcon (l.getLastD x) (by
          rw [hx, List.getLastD_eq_getLast?, List.getLast?_cons]
          rfl)
        rw [this]
        have h' : (g :: gs).map SkSeg.stop ≠ [] := by simp
        rw [List.getLast_cons h', List.getLast_map]
      rw [h2 hxb (hn rfl).1 (hn rfl).2 _ hend, hbc]
      exact List.dropLast_append_getLast _

theorem isEmpty_ptsOf (c : SkContour) : (ptsOf c).isEmpty = true ↔ c.closed = true ∧ c.segs = [] := by
  unfold ptsOf allSegs
  cases hc : c.closed with
  | false => simp
  | true =>
    cases hs : c.segs with
    | nil =>
      have : sameOrNaN (penAt c.start []) c.start := (needsLine_iff _ _).1 (needsLine_self c.start)
      simp [withStarts, this]
    | cons g l => simp [withStarts]

/-- Whether any contour is a loop, or otherwise what becomes of them. -/
theorem mapM_seen (conic : ConicToQuads) (cs : List SkContour) :
    ((∃ c ∈ cs, c.isLoop) ∧ Out.mapM' fromSkContour (seenCubic conic cs) = (.panic : R (Outline PD))) ∨
    ((∀ c ∈ cs, ¬ c.isLoop) ∧ ∃ o : Outline PD, Out.mapM' fromSkContour (seenCubic conic cs) = .ok o ∧
      ((∀ c ∈ cs, (∀ g ∈ c.segs, g.isConic = false) ∧ (c.closed = false → c.segs ≠ [] ∧ c.start.1.isNaN = false ∧ c.start.2.isNaN = false)) →
        o.map (fun d => d.map place) = (cs.filter fun c => !(c.closed && c.segs.isEmpty)).map SkContour.starts)) := by
  induction cs with
  | nil => exact Or.inr ⟨fun c hc => (nomatch hc), [], rfl, fun _ => rfl⟩
  | cons c cs ih =>
    rw [seenCubic]
    by_cases hl : c.closed = false ∧ c.segs = [] ∧ cs = []
    · rw [if_pos hl]
      refine Or.inr ⟨?_, [], rfl, fun h => absurd hl.2.1 ((h c (List.mem_cons_self ..)).2 hl.1).1⟩
      intro d hd h
      rw [hl.2.2] at hd
      cases List.mem_singleton.1 hd
      have := h.1
      rw [hl.1] at this
      cases this
    · rw [if_neg hl]
      by_cases he : (ptsOf c).isEmpty = true
      · rw [if_pos he, List.nil_append]
        have hec := (isEmpty_ptsOf c).1 he
        have hnl : ¬ c.isLoop := by
          rintro ⟨-, ⟨a, b, p, hg, -⟩ | ⟨b, p, hg, -⟩⟩ <;> rw [hec.2] at hg <;> cases hg
        rcases ih with ⟨⟨d, hd, h1⟩, h2⟩ | ⟨h1, o, h2, h3⟩
        · exact Or.inl ⟨⟨d, List.mem_cons_of_mem _ hd, h1⟩, h2⟩
        · refine Or.inr ⟨fun d hd => ?_, o, h2, fun h => ?_⟩
          · rcases List.mem_cons.1 hd with rfl | hd
            · exact hnl
            · exact h1 d hd
          · rw [h3 fun d hd => h d (List.mem_cons_of_mem _ hd), List.filter_cons, if_neg]
            simp [hec.1, hec.2]
      · rw [if_neg he, List.singleton_append, Out.mapM'_cons]
        rcases fromSkContour_any (PD := PD) conic c (by simpa using he) with ⟨h1, h2⟩ | ⟨h1, d, h2, h3⟩
        · left
          refine ⟨⟨c, List.mem_cons_self .., h1⟩, ?_⟩
          rw [h2]
          rfl
        · rw [h2, Out.bind_ok]
          rcases ih with ⟨⟨e, he', g1⟩, g2⟩ | ⟨g1, o, g2, g3⟩
          · left
            refine ⟨⟨e, List.mem_cons_of_mem _ he', g1⟩, ?_⟩
            rw [g2]
            rfl
          · right
            refine ⟨fun e he' => ?_, d :: o, ?_, fun h => ?_⟩
            · rcases List.mem_cons.1 he' with rfl | he'
              · exact h1
              · exact g1 e he'
            · rw [g2]
              rfl
            · rw [List.map_cons, g3 fun e he => h e (List.mem_cons_of_mem _ he),
                h3 (h c (List.mem_cons_self ..)).1 fun hc => ((h c (List.mem_cons_self ..)).2 hc).2, List.filter_cons, if_pos, List.map_cons]
              have := (isEmpty_ptsOf c).not.1 he
              cases hc : c.closed with
              | false => rfl
              | true =>
                cases hs : c.segs with
                | nil => exact absurd ⟨hc, hs⟩ this
                | cons g l => rfl

theorem outlineFromSkia_eq (conic : ConicToQuads) (cs : List SkContour) :
    (outlineFromSkia conic (cs.flatMap SkContour.els) : R (Outline PD)) = Out.mapM' fromSkContour (seenCubic conic cs) := by
  unfold outlineFromSkia splitSkiaPath
  rw [skSplit_contours]
  simp only [List.isEmpty_nil, if_true, List.nil_append, Out.bind_ok]
  rw [conics_seen, Out.bind_ok]

/-- **C67.** Making an outline from a Skia path panics exactly if the path has a loop: a closed contour of
one cubic or quadratic curve that ends where it began. -/
theorem C67_panics_iff (conic : ConicToQuads) (cs : List SkContour) :
    (outlineFromSkia conic (cs.flatMap SkContour.els) : R (Outline PD)) = .panic ↔ ∃ c ∈ cs, c.isLoop := by
  rw [outlineFromSkia_eq]
  rcases mapM_seen (PD := PD) conic cs with ⟨h1, h2⟩ | ⟨h1, o, h2, -⟩
  · exact ⟨fun _ => h1, fun _ => h2⟩
  · constructor
    · intro h
      rw [h2] at h
      cases h
    · rintro ⟨c, hc, h⟩
      exact absurd h (h1 c hc)

/-- Otherwise there is an outline; it is never an error. -/
theorem C67_ok (conic : ConicToQuads) (cs : List SkContour) (h : ∀ c ∈ cs, ¬ c.isLoop) :
    ∃ o : Outline PD, outlineFromSkia conic (cs.flatMap SkContour.els) = .ok o := by
  rw [outlineFromSkia_eq]
  rcases mapM_seen (PD := PD) conic cs with ⟨⟨c, hc, h1⟩, -⟩ | ⟨-, o, h2, -⟩
  · exact absurd h1 (h c hc)
  · exact ⟨o, h2⟩

/-- Such a path: a quadratic loop. -/
theorem C67_loop (conic : ConicToQuads) : ∃ cs : List SkContour, (outlineFromSkia conic (cs.flatMap SkContour.els) : R (Outline Unit)) = .panic := by
  refine ⟨[⟨(Flt.zero, Flt.zero), [.quad (Flt.ofInt b32 10, Flt.ofInt b32 10) (Flt.zero, Flt.zero)], true⟩], ?_⟩
  rw [C67_panics_iff]
  refine ⟨_, List.mem_cons_self .., rfl, Or.inr ⟨_, _, rfl, ?_⟩⟩
  decide +kernel

/-- **C68.** The outline has one contour for each contour of the path that draws anything, with one point
where each of its segments begins, and one at the end of an open contour: those of the path, in order.
(For paths with conics see `C68_conics`.  A lone `move_to` and an open contour that
begins at a NaN are dealt with in `C66_lone_move` and `C66_nan`.) -/
theorem C68_points (conic : ConicToQuads) (cs : List SkContour) (hl : ∀ c ∈ cs, ¬ c.isLoop)
    (h : ∀ c ∈ cs, (∀ g ∈ c.segs, g.isConic = false) ∧ (c.closed = false → c.segs ≠ [] ∧ c.start.1.isNaN = false ∧ c.start.2.isNaN = false)) :
    ∃ o : Outline PD, outlineFromSkia conic (cs.flatMap SkContour.els) = .ok o ∧
      (o.map fun d => d.map fun p => (p.x, p.y)) = (cs.filter fun c => !(c.closed && c.segs.isEmpty)).map SkContour.starts := by
  rw [outlineFromSkia_eq]
  rcases mapM_seen (PD := PD) conic cs with ⟨⟨c, hc, h1⟩, -⟩ | ⟨-, o, h2, h3⟩
  · exact absurd h1 (hl c hc)
  · exact ⟨o, h2, h3 h⟩

/-- A path that meets the hypotheses of `C68_points`: a closed contour with a line and a quadratic curve. -/
example : ∃ c : SkContour, c.closed = true ∧ c.segs.length = 2 ∧ ¬ c.isLoop ∧ (∀ g ∈ c.segs, g.isConic = false) ∧ c.starts.length = 3 := by
  refine ⟨⟨(Flt.zero, Flt.zero), [.line (Flt.ofInt b32 10, Flt.zero), .quad (Flt.ofInt b32 10, Flt.ofInt b32 10) (Flt.zero, Flt.ofInt b32 10)], true⟩,
    rfl, rfl, ?_, ?_, ?_⟩
  · rintro ⟨-, ⟨a, b, p, hg, -⟩ | ⟨b, p, hg, -⟩⟩ <;> cases hg
  · decide
  · decide +kernel

/-! ## Conics -/

theorem penAt_asQuads (conic : ConicToQuads) (l : List SkSeg) : ∀ s, penAt s (asQuads conic s l) = penAt s l := by
  induction l with
  | nil => intro s; rfl
  | cons g l ih =>
    intro s
    cases g with
    | line p => exact ih p
    | quad b p => exact ih p
    | conic b p w => exact ih p
    | cubic a b p => exact ih p

theorem cubics_asQuads (conic : ConicToQuads) (hk : KeepsEnds conic) (l : List SkSeg) : ∀ s,
    (withStarts s (asQuads conic s l)).flatMap (cubicPt conic) = (withStarts s l).flatMap (cubicPt conic) := by
  induction l with
  | nil => intro s; rfl
  | cons g l ih =>
    intro s
    cases g with
    | line p => simp only [asQuads, withStarts, List.flatMap_cons, SkSeg.stop, ih]
    | quad b p => simp only [asQuads, withStarts, List.flatMap_cons, SkSeg.stop, ih]
    | cubic a b p => simp only [asQuads, withStarts, List.flatMap_cons, SkSeg.stop, ih]
    | conic b p w =>
      simp only [asQuads, withStarts, List.flatMap_cons, SkSeg.stop, ih, cubicPt, (hk s b p w).1, (hk s b p w).2,
        List.cons_append, List.nil_append]

theorem asQuads_nil (conic : ConicToQuads) (s : SkPoint) (l : List SkSeg) : asQuads conic s l = [] ↔ l = [] := by
  cases l with
  | nil => simp [asQuads]
  | cons g l => cases g <;> simp [asQuads]

theorem seen_asQuads (conic : ConicToQuads) (hk : KeepsEnds conic) (cs : List SkContour) :
    seenCubic conic (cs.map (SkContour.asQuads conic)) = seenCubic conic cs := by
  induction cs with
  | nil => rfl
  | cons c cs ih =>
    have h1 : cubicsOf conic (c.asQuads conic) = cubicsOf conic c := by
      unfold cubicsOf allSegs
      simp only [SkContour.asQuads, List.flatMap_append, penAt_asQuads, cubics_asQuads conic hk]
      congr
    have h2 : (ptsOf (c.asQuads conic)).isEmpty = (ptsOf c).isEmpty := by
      rw [Bool.eq_iff_iff, isEmpty_ptsOf, isEmpty_ptsOf]
      simp only [SkContour.asQuads, asQuads_nil]
    rw [List.map_cons, seenCubic, seenCubic, ih, h1, h2]
    simp only [SkContour.asQuads, asQuads_nil, List.map_eq_nil_iff]

/-- **C68.** A path with conics gives the outline of the path that has the two quadratic curves which approximate it in the
place of each conic. -/
theorem C68_conics (conic : ConicToQuads) (hk : KeepsEnds conic) (cs : List SkContour) :
    (outlineFromSkia conic (cs.flatMap SkContour.els) : R (Outline PD)) =
      outlineFromSkia conic ((cs.map (SkContour.asQuads conic)).flatMap SkContour.els) := by
  rw [outlineFromSkia_eq, outlineFromSkia_eq, seen_asQuads conic hk]

theorem asQuads_isConic (conic : ConicToQuads) (l : List SkSeg) : ∀ s, ∀ g ∈ asQuads conic s l, g.isConic = false := by
  induction l with
  | nil => intro s g hg; cases hg
  | cons k l ih =>
    intro s g hg
    cases k with
    | conic b p w =>
      simp only [asQuads, List.mem_cons] at hg
      rcases hg with rfl | rfl | hg
      · rfl
      · rfl
      · exact ih p g hg
    | line p => rcases List.mem_cons.1 hg with rfl | hg; exacts [rfl, ih p g hg]
    | quad b p => rcases List.mem_cons.1 hg with rfl | hg; exacts [rfl, ih p g hg]
    | cubic a b p => rcases List.mem_cons.1 hg with rfl | hg; exacts [rfl, ih p g hg]

theorem asQuads_isLoop (conic : ConicToQuads) (c : SkContour) (h : (c.asQuads conic).isLoop) : c.isLoop := by
  obtain ⟨s, l, cl⟩ := c
  obtain ⟨hc, h⟩ := h
  refine ⟨hc, ?_⟩
  simp only [SkContour.asQuads] at h
  match l with
  | [] => rcases h with ⟨a, b, p, h, -⟩ | ⟨b, p, h, -⟩ <;> cases h
  | .conic b p w :: l => rcases h with ⟨a, b, p, h, -⟩ | ⟨b, p, h, -⟩ <;> simp [asQuads] at h
  | .line p :: l => rcases h with ⟨a, b, p, h, -⟩ | ⟨b, p, h, -⟩ <;> simp [asQuads] at h
  | .quad b p :: l =>
    rcases h with ⟨a, b, p, h, -⟩ | ⟨b, p, h, hs⟩
    · simp [asQuads] at h
    · simp only [asQuads, List.cons.injEq, asQuads_nil] at h
      obtain ⟨h1, rfl⟩ := h
      exact Or.inr ⟨b, p, by rw [h1], hs⟩
  | .cubic a b p :: l =>
    rcases h with ⟨a, b, p, h, hs⟩ | ⟨b, p, h, -⟩
    · simp only [asQuads, List.cons.injEq, asQuads_nil] at h
      obtain ⟨h1, rfl⟩ := h
      exact Or.inl ⟨a, b, p, by rw [h1], hs⟩
    · simp [asQuads] at h

/-- **C68** for all paths: conics have a second point, where the first of the two quadratic curves ends. -/
theorem C68_all (conic : ConicToQuads) (hk : KeepsEnds conic) (cs : List SkContour) (hl : ∀ c ∈ cs, ¬ c.isLoop)
    (h : ∀ c ∈ cs, c.closed = false → c.segs ≠ [] ∧ c.start.1.isNaN = false ∧ c.start.2.isNaN = false) :
    ∃ o : Outline PD, outlineFromSkia conic (cs.flatMap SkContour.els) = .ok o ∧
      (o.map fun d => d.map fun p => (p.x, p.y)) =
        (cs.filter fun c => !(c.closed && c.segs.isEmpty)).map fun c => (c.asQuads conic).starts := by
  rw [C68_conics conic hk]
  obtain ⟨o, h1, h2⟩ := C68_points (PD := PD) conic (cs.map (SkContour.asQuads conic))
    (by
      intro c hc hl'
      obtain ⟨d, hd, rfl⟩ := List.mem_map.1 hc
      exact hl d hd (asQuads_isLoop conic d hl'))
    (by
      intro c hc
      obtain ⟨d, hd, rfl⟩ := List.mem_map.1 hc
      refine ⟨asQuads_isConic conic d.segs d.start, fun hcl => ?_⟩
      have := h d hd hcl
      exact ⟨fun hn => this.1 ((asQuads_nil ..).1 hn), this.2⟩)
  refine ⟨o, h1, h2.trans ?_⟩
  rw [List.filter_map, List.map_map]
  have : ((fun c : SkContour => !(c.closed && c.segs.isEmpty)) ∘ SkContour.asQuads conic) =
      fun c : SkContour => !(c.closed && c.segs.isEmpty) := by
    funext c
    have : (asQuads conic c.start c.segs).isEmpty = c.segs.isEmpty := by
      rw [Bool.eq_iff_iff, List.isEmpty_iff, List.isEmpty_iff, asQuads_nil]
    simp [SkContour.asQuads, this]
  rw [this]
  rfl

/-- A path that meets the hypotheses of `C68_all`: a closed contour of a single conic, which is no loop even if it ends where it
began; it has two points. -/
example : ∃ (conic : ConicToQuads) (c : SkContour), KeepsEnds conic ∧ c.segs.length = 1 ∧ ¬ c.isLoop ∧
    (∃ g ∈ c.segs, g.isConic = true) ∧ (c.asQuads conic).starts.length = 2 := by
  refine ⟨fun s c p _ => (s, c, c, c, p),
    ⟨(Flt.zero, Flt.zero), [.conic (Flt.ofInt b32 10, Flt.ofInt b32 10) (Flt.zero, Flt.zero) (Flt.ofInt b32 1)], true⟩,
    fun _ _ _ _ => ⟨rfl, rfl⟩, rfl, ?_, ⟨_, List.mem_cons_self .., rfl⟩, ?_⟩
  · rintro ⟨-, ⟨a, b, p, hg, -⟩ | ⟨b, p, hg, -⟩⟩ <;> cases hg
  · decide +kernel

end GP
