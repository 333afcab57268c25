import Verif.Lemmas.SkiaOpen
/-!
# Lemmas on outlines made from any Skia path
-/
open Fl
namespace GP
variable {PD : Type}
open Spec

theorem needsLine_iff (p q : SkPoint) : needsLine p q = false ↔ sameOrNaN p q := by
  unfold needsLine sameOrNaN
  cases p.1.isNaN <;> cases p.2.isNaN <;> cases q.1.isNaN <;> cases q.2.isNaN <;> simp

/-- The element of a segment that begins at `s`. -/
def segPt (s : SkPoint) : SkSeg → SkPt
  | .line p => ⟨.line, [s, p], none⟩
  | .quad c p => ⟨.qcurve, [s, c, p], none⟩
  | .conic c p w => ⟨.qcurve, [s, c, p], some w⟩
  | .cubic a b p => ⟨.curve, [s, a, b, p], none⟩

def segVerb (s : SkPoint) : SkSeg → SkVerb
  | .line p => .line s p
  | .quad c p => .quad s c p
  | .conic c p w => .conic s c p w
  | .cubic a b p => .cubic s a b p

theorem segVerb_pt (s : SkPoint) (g : SkSeg) : (segVerb s g).pt = some (segPt s g) := by cases g <;> rfl

theorem segPt_ptype (s : SkPoint) (g : SkSeg) : (segPt s g).ptype ≠ .move := by cases g <;> simp [segPt]

/-- Segments with their beginnings. -/
def withStarts : SkPoint → List SkSeg → List (SkPoint × SkSeg)
  | _, [] => []
  | s, g :: l => (s, g) :: withStarts g.stop l

/-- Where the pen is after some segments. -/
def penAt : SkPoint → List SkSeg → SkPoint
  | s, [] => s
  | _, g :: l => penAt g.stop l

theorem penAt_eq (l : List SkSeg) : ∀ s, penAt s l = (s :: l.map SkSeg.stop).getLastD s := by
  have h : ∀ s d, penAt s l = (s :: l.map SkSeg.stop).getLastD d := by
    induction l with
    | nil => intro s d; rfl
    | cons g l ih =>
      intro s d
      rw [penAt, ih g.stop s]
      rfl
  exact fun s => h s s

/-- The segments of a contour, with the line that closes it. -/
def allSegs (c : SkContour) : List (SkPoint × SkSeg) :=
  withStarts c.start c.segs ++
    if c.closed ∧ ¬ sameOrNaN (penAt c.start c.segs) c.start then [(penAt c.start c.segs, .line c.start)] else []

/-- The elements of a contour. -/
def ptsOf (c : SkContour) : List SkPt :=
  (if c.closed then [] else [moveItem c.start]) ++ (allSegs c).map fun x => segPt x.1 x.2

theorem skIter_segs (l : List SkSeg) : ∀ (s start : SkPoint) (tail : List SkEl),
    skIter s start (l.map SkSeg.el ++ tail) = ((withStarts s l).map fun x => segVerb x.1 x.2) ++ skIter (penAt s l) start tail := by
  induction l with
  | nil => intros; rfl
  | cons g l ih =>
    intro s start tail
    cases g <;> exact congrArg _ (ih _ start tail)

theorem skSplit_segs (l : List (SkPoint × SkSeg)) : ∀ (o : List (List SkPt)) (c : List SkPt) (tail : List SkVerb),
    skSplit o c ((l.map fun x => segVerb x.1 x.2) ++ tail) = skSplit o (c ++ l.map fun x => segPt x.1 x.2) tail := by
  induction l with
  | nil => intros; simp
  | cons x l ih =>
    intro o c tail
    rw [List.map_cons, List.cons_append, skSplit_some (segVerb_pt x.1 x.2), if_neg (segPt_ptype x.1 x.2), ih, List.map_cons, List.append_assoc]
    rfl

/-- The contours that are seen, as lists of elements: a last lone `move_to` is not. -/
def seen : List SkContour → List (List SkPt)
  | [] => []
  | c :: cs => if c.closed = false ∧ c.segs = [] ∧ cs = [] then [] else (if (ptsOf c).isEmpty then [] else [ptsOf c]) ++ seen cs

theorem skSplit_contours (cs : List SkContour) : ∀ (last start : SkPoint) (o : List (List SkPt)) (c : List SkPt),
    skSplit o c (skIter last start (cs.flatMap SkContour.els)) = .ok ((if c.isEmpty then o else o ++ [c]) ++ seen cs) := by
  induction cs with
  | nil => intro last start o c; simp [skIter, skSplit, seen]
  | cons d cs ih =>
    intro last start o c
    rw [List.flatMap_cons, SkContour.els, List.append_assoc, List.cons_append, skIter]
    by_cases hd : d.closed = false ∧ d.segs = [] ∧ cs = []
    · rw [seen, if_pos hd]
      obtain ⟨h1, h2, h3⟩ := hd
      simp [h1, h2, h3, skSplit]
    · rw [seen, if_neg hd]
      have hne : (d.segs.map SkSeg.el ++ ((if d.closed then [SkEl.close] else []) ++ cs.flatMap SkContour.els)).isEmpty = false := by
        cases hb : d.closed with
        | true => simp
        | false =>
          cases hs : d.segs with
          | cons g l => rfl
          | nil =>
            cases cs with
            | nil => exact absurd ⟨hb, hs, rfl⟩ hd
            | cons e cs => simp [SkContour.els]
      rw [hne]
      simp only [Bool.false_eq_true, if_false]
      rw [skIter_segs, skSplit_some (p := moveItem d.start) rfl, if_pos (show (moveItem _).ptype = .move from rfl), skSplit_segs,
        List.singleton_append]
      have fin : ∀ (X : List SkPt) (last start : SkPoint), ptsOf d = X →
          skSplit (if c.isEmpty then o else o ++ [c]) X (skIter last start (cs.flatMap SkContour.els)) =
            .ok ((if c.isEmpty then o else o ++ [c]) ++ ((if (ptsOf d).isEmpty then [] else [ptsOf d]) ++ seen cs)) := by
        intro X last start hX
        rw [ih, ← hX]
        by_cases he : (ptsOf d).isEmpty = true
        · simp [he]
        · simp [he]
      cases hb : d.closed with
      | false =>
        refine fin _ _ _ ?_
        simp [ptsOf, allSegs, hb]
      | true =>
        simp only [if_true, List.singleton_append, skIter]
        by_cases hn : needsLine (penAt d.start d.segs) d.start = true
        · have hns : ¬ sameOrNaN (penAt d.start d.segs) d.start := by
            rw [← needsLine_iff, hn]
            decide
          rw [if_pos hn, List.singleton_append, skSplit_some (p := ⟨.line, [penAt d.start d.segs, d.start], none⟩) rfl, if_neg (fun h => (nomatch h)),
            List.cons_append, skSplit_close]
          refine fin _ _ _ ?_
          simp [ptsOf, allSegs, hb, hns, segPt]
        · have hs : sameOrNaN (penAt d.start d.segs) d.start := by
            rw [← needsLine_iff]
            simpa using hn
          rw [if_neg hn, List.nil_append, skSplit_close]
          refine fin _ _ _ ?_
          simp [ptsOf, allSegs, hb, hs]

/-! ## Quadratics and conics -/

/-- The element or elements of a segment without quadratics. -/
def cubicPt (conic : ConicToQuads) (x : SkPoint × SkSeg) : List SkPt :=
  match x.2 with
  | .line p => [⟨.line, [x.1, p], none⟩]
  | .quad c p => [⟨.curve, cubicPts x.1 c p, none⟩]
  | .conic c p w =>
    let q := conic x.1 c p w
    [⟨.curve, cubicPts q.1 q.2.1 q.2.2.1, none⟩, ⟨.curve, cubicPts q.2.2.1 q.2.2.2.1 q.2.2.2.2, none⟩]
  | .cubic a b p => [⟨.curve, [x.1, a, b, p], none⟩]

theorem conicToCubic_seg (conic : ConicToQuads) (x : SkPoint × SkSeg) : conicToCubic conic (segPt x.1 x.2) = .ok (cubicPt conic x) := by
  obtain ⟨s, g⟩ := x
  cases g <;> rfl

/-- The elements of a contour without quadratics. -/
def cubicsOf (conic : ConicToQuads) (c : SkContour) : List SkPt :=
  (if c.closed then [] else [moveItem c.start]) ++ (allSegs c).flatMap (cubicPt conic)

theorem conics_contour (conic : ConicToQuads) (c : SkContour) :
    (Out.mapM' (conicToCubic conic) (ptsOf c) >>= fun l => (Out.ok l.flatten : R (List SkPt))) = .ok (cubicsOf conic c) := by
  have hl : ∀ l : List (SkPoint × SkSeg), Out.mapM' (conicToCubic conic) (l.map fun x => segPt x.1 x.2) = .ok (l.map (cubicPt conic)) := by
    intro l
    induction l with
    | nil => rfl
    | cons x l ih => rw [List.map_cons, Out.mapM'_cons, conicToCubic_seg, Out.bind_ok, ih]; rfl
  unfold ptsOf cubicsOf
  cases c.closed with
  | true => simp only [if_true, List.nil_append, hl, Out.bind_ok, List.flatMap_def]
  | false =>
    simp only [Bool.false_eq_true, if_false, List.singleton_append]
    rw [Out.mapM'_cons, hl]
    rfl

/-- The contours that are seen, without quadratics. -/
def seenCubic (conic : ConicToQuads) : List SkContour → List (List SkPt)
  | [] => []
  | c :: cs =>
    if c.closed = false ∧ c.segs = [] ∧ cs = [] then [] else (if (ptsOf c).isEmpty then [] else [cubicsOf conic c]) ++ seenCubic conic cs

theorem conics_seen (conic : ConicToQuads) (cs : List SkContour) : conicsToCubics conic (seen cs) = .ok (seenCubic conic cs) := by
  unfold conicsToCubics
  induction cs with
  | nil => rfl
  | cons c cs ih =>
    rw [seen, seenCubic]
    by_cases h : c.closed = false ∧ c.segs = [] ∧ cs = []
    · rw [if_pos h, if_pos h]
      rfl
    · rw [if_neg h, if_neg h]
      by_cases he : (ptsOf c).isEmpty = true
      · rw [if_pos he, if_pos he, List.nil_append, List.nil_append]
        exact ih
      · rw [if_neg he, if_neg he, List.singleton_append, List.singleton_append, Out.mapM'_cons]
        have := conics_contour conic c
        rw [this, Out.bind_ok, ih]
        rfl

/-! ## Points -/

/-- A line with two points or a curve with four. -/
def GoodPt (p : SkPt) : Prop := (p.ptype = .line ∧ ∃ a b, p.points = [a, b]) ∨ (p.ptype = .curve ∧ ∃ a b c d, p.points = [a, b, c, d])

/-- Where an element begins. -/
def SkPt.begin (p : SkPt) : SkPoint := p.points.headD (Flt.zero, Flt.zero)

def place (p : Point PD) : SkPoint := (p.x, p.y)

theorem good_cubicPt (conic : ConicToQuads) (x : SkPoint × SkSeg) : ∀ p ∈ cubicPt conic x, GoodPt p := by
  obtain ⟨s, g⟩ := x
  intro p hp
  cases g with
  | line q =>
    cases List.mem_singleton.1 hp
    exact Or.inl ⟨rfl, _, _, rfl⟩
  | quad c q =>
    cases List.mem_singleton.1 hp
    exact Or.inr ⟨rfl, _, _, _, _, rfl⟩
  | conic c q w =>
    rcases List.mem_cons.1 hp with rfl | hp
    · exact Or.inr ⟨rfl, _, _, _, _, rfl⟩
    · cases List.mem_singleton.1 hp
      exact Or.inr ⟨rfl, _, _, _, _, rfl⟩
  | cubic a b q =>
    cases List.mem_singleton.1 hp
    exact Or.inr ⟨rfl, _, _, _, _, rfl⟩

/-- One more element after the first point. -/
theorem skPointAt_good (first prev cur : SkPt) (hf : GoodPt first ∨ first.ptype = .move) (hp : GoodPt prev ∨ prev.ptype = .move) (hc : GoodPt cur)
    (c0 : Point PD) (cs : Contour PD) (i : Nat) (isLast : Bool) :
    ∃ c0' p, skPointAt first prev (c0 :: cs) i isLast cur = .ok (c0' :: (cs ++ [p])) ∧ place c0' = place c0 ∧ c0'.ptype = c0.ptype ∧
      place p = cur.begin ∧ (p.ptype = .curve ∨ p.ptype = .line) := by
  have hprev : prev.ptype = .curve → ∃ h, prev.points[2]? = some h := by
    intro e
    rcases hp with (⟨h, _⟩ | ⟨_, a, b, c, d, h⟩) | h
    · rw [h] at e; cases e
    · exact ⟨c, by rw [h]; rfl⟩
    · rw [h] at e; cases e
  have hfirst : first.ptype = .curve → ∃ h, first.points[1]? = some h := by
    intro e
    rcases hf with (⟨h, _⟩ | ⟨_, a, b, c, d, h⟩) | h
    · rw [h] at e; cases e
    · exact ⟨b, by rw [h]; rfl⟩
    · rw [h] at e; cases e
  rcases hc with ⟨ht, a, b, hpts⟩ | ⟨ht, a, b, c, d, hpts⟩
  · unfold skPointAt
    by_cases hb : i ≠ 0 ∧ prev.ptype = .curve
    · obtain ⟨h, hh⟩ := hprev hb.2
      refine ⟨c0, { x := a.1, y := a.2, ptype := .curve, b := Handle.ofSk h }, ?_, rfl, rfl, by simp [place, SkPt.begin, hpts], Or.inl rfl⟩
      simp [ht, hpts, hb.1, hb.2, hh, Out.unwrap]
    · refine ⟨c0, { x := a.1, y := a.2, ptype := .line }, ?_, rfl, rfl, by simp [place, SkPt.begin, hpts], Or.inr rfl⟩
      simp only [ht, hpts, Out.unwrap]
      simp [hb]
  · have hpt : ∃ hb : Handle, (prev.ptype = .curve ∧ ∃ h, prev.points[2]? = some h ∧ hb = Handle.ofSk h) ∨ (prev.ptype ≠ .curve ∧ hb = .colocated) := by
      by_cases hpr : prev.ptype = .curve
      · obtain ⟨h, hh⟩ := hprev hpr
        exact ⟨_, Or.inl ⟨hpr, h, hh, rfl⟩⟩
      · exact ⟨_, Or.inr ⟨hpr, rfl⟩⟩
    obtain ⟨hb, hk⟩ := hpt
    have hfa : ∃ ha : Handle, (first.ptype = .curve ∧ ∃ h, first.points[1]? = some h ∧ ha = Handle.ofSk h) ∨ (first.ptype ≠ .curve ∧ ha = c0.a) := by
      by_cases hpr : first.ptype = .curve
      · obtain ⟨h, hh⟩ := hfirst hpr
        exact ⟨_, Or.inl ⟨hpr, h, hh, rfl⟩⟩
      · exact ⟨_, Or.inr ⟨hpr, rfl⟩⟩
    obtain ⟨ha, hk'⟩ := hfa
    cases isLast with
    | false =>
      refine ⟨c0, { x := a.1, y := a.2, ptype := .curve, a := Handle.ofSk b, b := hb }, ?_, rfl, rfl, by simp [place, SkPt.begin, hpts], Or.inl rfl⟩
      unfold skPointAt
      rcases hk with ⟨h1, h, h2, rfl⟩ | ⟨h1, rfl⟩ <;> simp [*]
    | true =>
      refine ⟨{ c0 with a := ha, b := Handle.ofSk c }, { x := a.1, y := a.2, ptype := .curve, a := Handle.ofSk b, b := hb }, ?_, rfl, rfl,
        by simp [place, SkPt.begin, hpts], Or.inl rfl⟩
      unfold skPointAt
      rcases hk with ⟨h1, h, h2, rfl⟩ | ⟨h1, rfl⟩ <;> rcases hk' with ⟨g1, g, g2, rfl⟩ | ⟨g1, rfl⟩ <;> simp [*]

/-- All further elements. -/
theorem skPoints_good (first : SkPt) (hf : GoodPt first ∨ first.ptype = .move) (l : List SkPt) : ∀ (prev : SkPt) (c0 : Point PD) (cs : Contour PD) (i : Nat),
    (GoodPt prev ∨ prev.ptype = .move) → (∀ p ∈ l, GoodPt p) →
    ∃ c0' ps, skPoints first prev (c0 :: cs) i l = .ok (c0' :: (cs ++ ps)) ∧ place c0' = place c0 ∧ c0'.ptype = c0.ptype ∧
      ps.map place = l.map SkPt.begin ∧ ∀ p ∈ ps, p.ptype = .curve ∨ p.ptype = .line := by
  induction l with
  | nil => intro prev c0 cs i _ _; exact ⟨c0, [], by simp [skPoints], rfl, rfl, rfl, fun p hp => nomatch hp⟩
  | cons x l ih =>
    intro prev c0 cs i hp hl
    obtain ⟨d0, p, h1, h2, h3, h4, h5⟩ := skPointAt_good first prev x hf hp (hl x (List.mem_cons_self ..)) c0 cs i l.isEmpty
    obtain ⟨e0, ps, g1, g2, g3, g4, g5⟩ := ih x d0 (cs ++ [p]) (i + 1) (Or.inl (hl x (List.mem_cons_self ..))) fun q hq => hl q (List.mem_cons_of_mem _ hq)
    refine ⟨e0, p :: ps, ?_, g2.trans h2, g3.trans h3, by rw [List.map_cons, List.map_cons, h4, g4], ?_⟩
    · rw [skPoints, h1, Out.bind_ok, g1, List.append_assoc]
      rfl
    · intro q hq
      rcases List.mem_cons.1 hq with rfl | hq
      · exact h5
      · exact g5 q hq

/-- A closed contour: it panics if it is a single curve. -/
theorem fromSkContour_closed (x : SkPt) (l : List SkPt) (h : ∀ p ∈ x :: l, GoodPt p) :
    (l = [] ∧ x.ptype = .curve ∧ fromSkContour (x :: l) = (.panic : R (Contour PD))) ∨
    (¬ (l = [] ∧ x.ptype = .curve) ∧ ∃ c : Contour PD, fromSkContour (x :: l) = .ok c ∧ c.map place = (x :: l).map SkPt.begin) := by
  have hx := h x (List.mem_cons_self ..)
  have hlast : GoodPt (l.getLastD x) := by
    rw [List.getLastD_eq_getLast?]
    cases hg : l.getLast? with
    | none => exact hx
    | some w => exact h w (List.mem_cons_of_mem _ (List.mem_of_getLast? hg))
  by_cases hs : l = [] ∧ x.ptype = .curve
  · left
    refine ⟨hs.1, hs.2, ?_⟩
    rcases hx with ⟨ht, -⟩ | ⟨ht, a, b, c, d, hpts⟩
    · rw [hs.2] at ht; cases ht
    · obtain ⟨rfl, -⟩ := hs
      unfold fromSkContour
      simp only [List.getLastD_nil, skPoints, skPointAt, ht, hpts, Out.unwrap, List.getElem?_cons_zero, List.getElem?_cons_succ, Out.bind_ok, if_true,
        List.isEmpty_nil]
      rfl
  · right
    refine ⟨hs, ?_⟩
    have h0 : ∃ p : Point PD, skPointAt x (l.getLastD x) [] 0 l.isEmpty x = .ok [p] ∧ place p = x.begin ∧ (p.ptype = .curve ∨ p.ptype = .line) := by
      rcases hx with ⟨ht, a, b, hpts⟩ | ⟨ht, a, b, c, d, hpts⟩
      · refine ⟨{ x := a.1, y := a.2, ptype := .line }, ?_, by simp [place, SkPt.begin, hpts], Or.inr rfl⟩
        unfold skPointAt
        simp [ht, hpts, Out.unwrap]
      · have hle : l.isEmpty = false := by
          cases l with
          | nil => exact absurd ⟨rfl, ht⟩ hs
          | cons a l => rfl
        rw [hle]
        by_cases hpr : (l.getLastD x).ptype = .curve
        · rcases hlast with ⟨hh, -⟩ | ⟨-, a', b', c', d', hpts'⟩
          · rw [hpr] at hh; cases hh
          · refine ⟨{ x := a.1, y := a.2, ptype := .curve, a := Handle.ofSk b, b := Handle.ofSk c' }, ?_, by simp [place, SkPt.begin, hpts], Or.inl rfl⟩
            unfold skPointAt
            simp only [ht, hpts, hpr, hpts', Out.unwrap, List.getElem?_cons_zero, List.getElem?_cons_succ, Out.bind_ok, if_true, Bool.false_eq_true, if_false]
            rfl
        · refine ⟨{ x := a.1, y := a.2, ptype := .curve, a := Handle.ofSk b }, ?_, by simp [place, SkPt.begin, hpts], Or.inl rfl⟩
          unfold skPointAt
          simp only [ht, hpts, hpr, Out.unwrap, List.getElem?_cons_zero, List.getElem?_cons_succ, Out.bind_ok, Bool.false_eq_true, if_false]
          rfl
    obtain ⟨p, h1, h2, h3⟩ := h0
    obtain ⟨c0, ps, g1, g2, g3, g4, -⟩ := skPoints_good x (Or.inl hx) l x p [] 1 (Or.inl hx) fun q hq => h q (List.mem_cons_of_mem _ hq)
    refine ⟨c0 :: ps, ?_, by rw [List.map_cons, List.map_cons, g2, h2, g4]⟩
    unfold fromSkContour
    simp only [skPoints]
    rw [h1, Out.bind_ok, g1, Out.bind_ok, List.nil_append, if_neg]
    rw [List.head?_cons, Option.any_some, g3]
    rcases h3 with h3 | h3 <;> rw [h3] <;> decide

/-- An open contour that has segments. -/
theorem fromSkContour_move (s : SkPoint) (x : SkPt) (l : List SkPt) (h : ∀ p ∈ x :: l, GoodPt p) :
    ∃ c : Contour PD, fromSkContour (moveItem s :: x :: l) = .ok c ∧
      (x.begin = s → s.1.isNaN = false → s.2.isNaN = false → ∀ e, (l.getLastD x).points.getLast? = some e →
        c.map place = (x :: l).map SkPt.begin ++ [e]) := by
  have hx := h x (List.mem_cons_self ..)
  have hlast : GoodPt (l.getLastD x) := by
    rw [List.getLastD_eq_getLast?]
    cases hg : l.getLast? with
    | none => exact hx
    | some w => exact h w (List.mem_cons_of_mem _ (List.mem_of_getLast? hg))
  have h0 : skPointAt (moveItem s) (l.getLastD x) ([] : Contour PD) 0 false (moveItem s) = .ok [{ x := s.1, y := s.2, ptype := .move }] := rfl
  obtain ⟨c0, ps, g1, g2, g3, g4, g5⟩ := skPoints_good (moveItem s) (Or.inr rfl) (x :: l) (moveItem s) ({ x := s.1, y := s.2, ptype := .move } : Point PD) [] 1
    (Or.inr rfl) h
  obtain ⟨c1, ps, rfl⟩ : ∃ c1 qs, ps = c1 :: qs := by
    cases ps with
    | nil => simp at g4
    | cons a b => exact ⟨a, b, rfl⟩
  rw [List.map_cons, List.map_cons, List.cons.injEq] at g4
  obtain ⟨z, hz⟩ : ∃ z, (c1 :: ps).getLast? = some z := by
    cases h : (c1 :: ps).getLast? with
    | none => simp at h
    | some z => exact ⟨z, rfl⟩
  have ht := g5 z (List.mem_of_getLast? hz)
  have hz' : (c0 :: c1 :: ps).getLast? = some z := by rw [List.getLast?_cons_cons]; exact hz
  have hfix : ∃ (w : Point PD) (c : Contour PD), (l.getLastD x).points.getLast? = some (place w) ∧ fixupOpen (c0 :: c1 :: ps) (l.getLastD x) = .ok c ∧
      (c1.x.feq c0.x = true → c1.y.feq c0.y = true → c.map place = place c0 :: (ps ++ [w]).map place) := by
    have fin : ∀ w : Point PD, ∃ c : Contour PD, (if (c1.x.feq c0.x && c1.y.feq c0.y) = true then
        (Out.ok ({ c0 with a := c1.a, b := c1.b } :: (ps ++ [w])) : R (Contour PD)) else .ok (c0 :: c1 :: (ps ++ [w]))) = .ok c ∧
        (c1.x.feq c0.x = true → c1.y.feq c0.y = true → c.map place = place c0 :: (ps ++ [w]).map place) := by
      intro w
      by_cases hf : (c1.x.feq c0.x && c1.y.feq c0.y) = true
      · rw [if_pos hf]
        exact ⟨_, rfl, fun _ _ => rfl⟩
      · rw [if_neg hf]
        refine ⟨_, rfl, fun h1 h2 => ?_⟩
        rw [h1, h2] at hf
        exact absurd rfl hf
    unfold fixupOpen
    simp only [hz', List.head?_cons, Out.unwrap, Out.bind_ok, ht, if_true]
    rcases hlast with ⟨-, a, b, hp⟩ | ⟨-, a, b, c, d, hp⟩
    · obtain ⟨c, h1, h2⟩ := fin ({ x := b.1, y := b.2, ptype := .line } : Point PD)
      refine ⟨_, c, by rw [hp]; rfl, ?_, h2⟩
      simp only [hp, List.cons_append]
      exact h1
    · obtain ⟨c', h1, h2⟩ := fin ({ x := d.1, y := d.2, ptype := .curve, b := if d.1.feq c.1 && d.2.feq c.2 then .colocated else Handle.ofSk c } : Point PD)
      refine ⟨_, c', by rw [hp]; rfl, ?_, h2⟩
      simp only [hp, List.cons_append]
      exact h1
  obtain ⟨w, c, he, hc1, hc2⟩ := hfix
  refine ⟨c, ?_, ?_⟩
  · unfold fromSkContour
    simp only [List.getLastD_cons]
    rw [skPoints, List.isEmpty_cons, h0, Out.bind_ok, g1, Out.bind_ok, List.nil_append, if_pos]
    · exact hc1
    · rw [List.head?_cons, Option.any_some, g3]
      rfl
  · intro hb hn1 hn2 e' he'
    rw [he] at he'
    cases he'
    have hc0 : c0.x = s.1 ∧ c0.y = s.2 := by
      have := g2
      simp only [place, Prod.mk.injEq] at this
      exact this
    have hc1' : c1.x = s.1 ∧ c1.y = s.2 := by
      have := g4.1.trans hb
      exact ⟨congrArg Prod.fst this, congrArg Prod.snd this⟩
    rw [hc2 (by rw [hc0.1, hc1'.1]; exact feq_self hn1) (by rw [hc0.2, hc1'.2]; exact feq_self hn2), List.map_append, g4.2]
    have : place c0 = x.begin := by rw [hb]; exact g2
    rw [this]
    rfl

/-- An open contour without segments. -/
theorem fromSkContour_lone (s : SkPoint) : fromSkContour [moveItem s] = .ok [({ x := s.1, y := s.2, ptype := .move } : Point PD)] := rfl

end GP
