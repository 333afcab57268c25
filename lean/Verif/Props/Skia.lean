import Verif.Lemmas.Skia
import Verif.Props.Sample
import Mathlib.Tactic.Ring
import Mathlib.Tactic.LinearCombination
import Mathlib.Data.List.Forall2
import Mathlib.Data.Rat.Defs
import Mathlib.Tactic.NormNum
/-!
# Quadratic to cubic (C38) and Skia paths (C53)
-/
open Fl
namespace GP
variable {PD : Type}
open Spec

/-! ## C38 -/

/-- **C38.** Over exact arithmetic (any commutative ring with a `k` such that `3 k = 2`, say the
rationals) the cubic curve is the quadratic one, at every parameter. -/
theorem C38_same_curve {K : Type} [CommRing K] {k : K} (hk : 3 * k = 2) (p0 p1 p2 : K × K) (t : K) :
    let q := quadToCubic k p0 p1 p2
    (bezier3 q.1.1 q.2.1.1 q.2.2.1.1 q.2.2.2.1 t, bezier3 q.1.2 q.2.1.2 q.2.2.1.2 q.2.2.2.2 t) =
      (bezier2 p0.1 p1.1 p2.1 t, bezier2 p0.2 p1.2 p2.2 t) := by
  have key : ∀ a b c : K, bezier3 a (a + k * (b - a)) (c + k * (b - c)) c t = bezier2 a b c t := by
    intro a b c
    unfold bezier3 bezier2
    linear_combination ((1 - t) ^ 2 * t * (b - a) + (1 - t) * t ^ 2 * (b - c)) * hk
  exact Prod.ext (key _ _ _) (key _ _ _)

example : (3 : ℚ) * (2 / 3) = 2 := by norm_num

/-- In the numbers the program uses, the end points are kept exactly. -/
theorem C38_ends (p0 p1 p2 : SkPoint) :
    (quadToCubic twoThirds p0 p1 p2).1 = p0 ∧ (quadToCubic twoThirds p0 p1 p2).2.2.2 = p2 := ⟨rfl, rfl⟩

/-- No other cubic curve with the same ends is the quadratic one (over the rationals, or wherever one can
divide by 6), so the two inner points are exactly these. -/
theorem C38_unique {K : Type} [CommRing K] (h6 : ∀ x : K, 6 * x = 0 → x = 0) {a b c u v : K} {k : K} (hk : 3 * k = 2)
    (h : ∀ t, bezier3 a u v c t = bezier2 a b c t) : u = a + k * (b - a) ∧ v = c + k * (b - c) := by
  have key := fun t => (C38_same_curve hk (a, a) (b, b) (c, c) t)
  simp only [Prod.mk.injEq, quadToCubic] at key
  have hd : ∀ t, 6 * ((1 - t) ^ 2 * t * (u - (a + k * (b - a))) + (1 - t) * t ^ 2 * (v - (c + k * (b - c)))) = 0 := by
    intro t
    have e := (h t).trans (key t).1.symm
    unfold bezier3 at e
    linear_combination 2 * e
  have e1 := h6 _ (hd (-1))
  have e2 := h6 _ (hd 2)
  constructor
  · apply sub_eq_zero.1
    apply h6
    linear_combination -2 * e1 - e2
  · apply sub_eq_zero.1
    apply h6
    linear_combination -e1 - 2 * e2

/-- The rationals will do. -/
example : ∃ k : ℚ, 3 * k = 2 := ⟨2 / 3, by norm_num⟩

/-! ## C53 -/

theorem polygon_fromSk (p q r : Point PD) : polygon (fromSk p q, fromSk q r) = polygon (p, q) := by
  unfold polygon segment fromSk
  by_cases hq : q.ptype = .curve <;> by_cases hr : r.ptype = .curve <;>
    simp [hq, hr, outPos, inPos, Handle.ofSk]

theorem polygons_fromSk (l : List (Point PD)) : ∀ (p e f : Point PD),
    List.map polygon ((List.zipWith fromSk (p :: l) (l ++ [e])).zip ((List.zipWith fromSk (p :: l) (l ++ [e])).tail ++ [fromSk e f])) =
      List.map polygon ((p :: l).zip (l ++ [e])) := by
  induction l with
  | nil =>
    intro p e f
    simp [polygon_fromSk]
  | cons q l ih =>
    intro p e f
    have := ih q e f
    cases l with
    | nil =>
      simp only [List.nil_append, List.cons_append, List.zipWith_cons_cons, List.zipWith_nil_left, List.tail_cons, List.zip_cons_cons,
        List.zip_nil_left, List.map_cons, List.map_nil, polygon_fromSk]
    | cons a l =>
      simp only [List.cons_append, List.zipWith_cons_cons, List.tail_cons, List.zip_cons_cons, List.map_cons, polygon_fromSk] at this ⊢
      rw [this]

theorem polygons_back (p q : Point PD) (rest : Contour PD) (h : ClosedMixed p q rest) (hb : ¬ (p.ptype = .curve ∧ q.ptype = .line)) :
    (closedPairs (backFromSk p q rest)).map polygon = (closedPairs (p :: q :: rest)).map polygon := by
  have he : backFromSk p q rest = List.zipWith fromSk (p :: q :: rest) (q :: rest ++ [p]) := by
    unfold backFromSk
    rw [List.cons_append, List.zipWith_cons_cons]
    congr 1
    have : (if p.ptype = .curve ∨ q.ptype = .curve then PointType.curve else .line) = if q.ptype = .curve then .curve else .line := by
      by_cases hq : q.ptype = .curve
      · simp [hq]
      · have hql : q.ptype = .line := (h.lc q (by simp)).resolve_right hq
        have hp : p.ptype ≠ .curve := fun hp => hb ⟨hp, hql⟩
        simp [hp, hq]
    unfold fromSk
    simp only [this]
  rw [he]
  have := polygons_fromSk (q :: rest) p p q
  unfold closedPairs
  rw [List.cons_append, List.zipWith_cons_cons] at this ⊢
  exact this

/-- **C53**, what is drawn: going to a Skia path and back, a closed contour of lines and curves keeps the
control polygons of all its segments.  Missing: contours that begin with a curve point followed by a line
point, for which it is false (`C53_false`); contours of one point, which make it panic
(`C53_false_single`); contours whose last line has no length (`C53_false_duplicate`). -/
theorem C53_partial (conic : ConicToQuads) (p q : Point PD) (rest : Contour PD) (h : ClosedMixed p q rest)
    (hb : ¬ (p.ptype = .curve ∧ q.ptype = .line)) :
    ∃ (path : List SkEl) (c' : Contour PD), toSkiaPath id id (p :: q :: rest) = some path ∧ outlineFromSkia conic path = .ok [c'] ∧
      c'.length = (p :: q :: rest).length ∧
      (closedPairs c').map polygon = (closedPairs (p :: q :: rest)).map polygon := by
  obtain ⟨path, h1, h2⟩ := skia_back conic p q rest h
  exact ⟨path, _, h1, h2, by simp [backFromSk], polygons_back p q rest h hb⟩

/-- The same for all contours of an outline at once, through the path of its closed contours. -/
theorem C53_partial_outline (conic : ConicToQuads) (o : Outline PD) (hne : o ≠ [])
    (h : ∀ c ∈ o, ∃ p q rest, c = p :: q :: rest ∧ ClosedMixed p q rest ∧ ¬ (p.ptype = .curve ∧ q.ptype = .line)) :
    ∃ (path : List SkEl) (o' : Outline PD), toSkiaPaths id id o = (none, some path) ∧ outlineFromSkia conic path = .ok o' ∧
      o'.map (fun c => (closedPairs c).map polygon) = o.map fun c => (closedPairs c).map polygon := by
  obtain ⟨l, rfl, hl⟩ : ∃ l : List (Point PD × Point PD × Contour PD), o = (l.map fun x => x.1 :: x.2.1 :: x.2.2) ∧
      ∀ x ∈ l, ClosedMixed x.1 x.2.1 x.2.2 ∧ ¬ (x.1.ptype = .curve ∧ x.2.1.ptype = .line) := by
    clear hne
    induction o with
    | nil => exact ⟨[], rfl, fun x hx => nomatch hx⟩
    | cons c o ih =>
      obtain ⟨l, rfl, hl⟩ := ih fun d hd => h d (List.mem_cons_of_mem _ hd)
      obtain ⟨p, q, rest, rfl, h1⟩ := h c (List.mem_cons_self ..)
      refine ⟨(p, q, rest) :: l, rfl, fun x hx => ?_⟩
      rcases List.mem_cons.1 hx with rfl | hx
      · exact h1
      · exact hl x hx
  have hback := skia_back_all conic l fun x hx => (hl x hx).1
  refine ⟨_, _, ?_, hback, ?_⟩
  · have hnm : ∀ x ∈ l, x.1.ptype ≠ .move := by
      intro x hx
      rcases (hl x hx).1.lc x.1 (List.mem_cons_self ..) with e | e <;> rw [e] <;> decide
    rw [toSkiaPaths_eq]
    have f1 : (l.map fun x => x.1 :: x.2.1 :: x.2.2).filter openContour = [] := by
      rw [List.filter_eq_nil_iff]
      intro c hc
      obtain ⟨x, hx, rfl⟩ := List.mem_map.1 hc
      simp [openContour, hnm x hx]
    have f2 : (l.map fun x => x.1 :: x.2.1 :: x.2.2).filter (fun c => !openContour c) =
        l.map fun x => x.1 :: x.2.1 :: x.2.2 := by
      rw [List.filter_eq_self]
      intro c hc
      obtain ⟨x, hx, rfl⟩ := List.mem_map.1 hc
      simp [openContour, hnm x hx]
    have f3 : (l.map fun x => x.1 :: x.2.1 :: x.2.2).filterMap (toSkiaPath id id) = l.map fun x => skPath x.1 (x.2.1 :: x.2.2) := by
      rw [List.filterMap_map]
      exact List.filterMap_eq_map ▸ rfl
    simp only [f1, f2, f3, skNonempty]
    rw [if_pos (by rfl), if_neg]
    cases l with
    | nil => exact absurd rfl hne
    | cons x l => simp [skPath]
  · rw [List.map_map, List.map_map]
    apply List.map_congr_left
    intro x hx
    exact polygons_back x.1 x.2.1 x.2.2 (hl x hx).1 (hl x hx).2

/-- Closed contours of curves come back as they were, but for names and data, and with all handles explicit. -/
theorem C53_partial_curves (conic : ConicToQuads) (c : Contour PD) (h2 : 2 ≤ c.length) (hc : ∀ p ∈ c, p.ptype = .curve) :
    ∃ (path : List SkEl) (c' : Contour PD), toSkiaPath id id c = some path ∧ outlineFromSkia conic path = .ok [c'] ∧ List.Forall₂ SamePlace c c' := by
  match c, h2 with
  | p :: q :: rest, _ =>
    obtain ⟨path, h1, h2⟩ := skia_back conic p q rest ⟨fun x hx => Or.inr (hc x hx), fun e => by
      rw [hc p (List.mem_cons_self ..)] at e; cases e⟩
    refine ⟨path, _, h1, h2, ?_⟩
    have one : ∀ a b : Point PD, a.ptype = .curve → b.ptype = .curve → SamePlace a (fromSk a b) := by
      intro a b ha hb
      refine ⟨rfl, rfl, ?_, ?_, ?_⟩
      · simp [fromSk, ha]
      · simp [fromSk, hb, outPos, Handle.ofSk]
      · simp [fromSk, ha, inPos, Handle.ofSk]
    have hp := hc p (List.mem_cons_self ..)
    have hq := hc q (by simp)
    have chain : ∀ (l : List (Point PD)) (a : Point PD), (∀ x ∈ a :: l, x.ptype = .curve) →
        List.Forall₂ SamePlace (a :: l) (List.zipWith fromSk (a :: l) (l ++ [p])) := by
      intro l
      induction l with
      | nil => intro a ha; exact .cons (one a p (ha a (List.mem_cons_self ..)) hp) .nil
      | cons b l ih =>
        intro a ha
        exact .cons (one a b (ha a (List.mem_cons_self ..)) (ha b (by simp))) (ih b fun x hx => ha x (List.mem_cons_of_mem _ hx))
    refine .cons ?_ (chain rest q fun x hx => hc x (List.mem_cons_of_mem _ hx))
    have := one p q hp hq
    exact ⟨this.x, this.y, by simp [hq, hp], this.a, this.b⟩

/-- Closed contours of lines, too. -/
theorem C53_partial_lines (conic : ConicToQuads) (p q : Point PD) (rest : Contour PD) (h : ClosedMixed p q rest)
    (hl : ∀ x ∈ p :: q :: rest, x.ptype = .line ∧ x.a = .colocated ∧ x.b = .colocated) :
    ∃ (path : List SkEl) (c' : Contour PD), toSkiaPath id id (p :: q :: rest) = some path ∧ outlineFromSkia conic path = .ok [c'] ∧
      List.Forall₂ SamePlace (p :: q :: rest) c' := by
  obtain ⟨path, h1, h2⟩ := skia_back conic p q rest h
  refine ⟨path, _, h1, h2, ?_⟩
  have one : ∀ a b : Point PD, (a.ptype = .line ∧ a.a = .colocated ∧ a.b = .colocated) → b.ptype = .line → SamePlace a (fromSk a b) := by
    intro a b ⟨ha, ha1, ha2⟩ hb
    refine ⟨rfl, rfl, ?_, ?_, ?_⟩
    · simp [fromSk, ha, hb]
    · simp [fromSk, hb, outPos, ha1]
    · simp [fromSk, ha, inPos, ha2]
  have chain : ∀ (l : List (Point PD)) (a : Point PD), (∀ x ∈ a :: l, x.ptype = .line ∧ x.a = .colocated ∧ x.b = .colocated) →
      List.Forall₂ SamePlace (a :: l) (List.zipWith fromSk (a :: l) (l ++ [p])) := by
    intro l
    induction l with
    | nil => intro a ha; exact .cons (one a p (ha a (List.mem_cons_self ..)) (hl p (by simp)).1) .nil
    | cons b l ih =>
      intro a ha
      exact .cons (one a b (ha a (List.mem_cons_self ..)) (ha b (by simp)).1) (ih b fun x hx => ha x (List.mem_cons_of_mem _ hx))
  refine .cons ?_ (chain rest q fun x hx => hl x (List.mem_cons_of_mem _ hx))
  have := one p q (hl p (by simp)) (hl q (by simp)).1
  refine ⟨this.x, this.y, ?_, this.a, this.b⟩
  simp [(hl p (by simp)).1, (hl q (by simp)).1]

/-- C53 as stated is false: when a curve point is followed by a line point at the beginning, the closing
curve comes back as a straight line. -/
theorem C53_false (conic : ConicToQuads) : ∃ (c c' : Contour Unit) (path : List SkEl),
    (∀ p ∈ c, p.ptype = .line ∨ p.ptype = .curve) ∧ c.length = 3 ∧
    toSkiaPath id id c = some path ∧ outlineFromSkia conic path = .ok [c'] ∧
    (closedPairs c').map polygon ≠ (closedPairs c).map polygon := by
  have h : ∃ p q r : Point Unit, p = Sample.cv 0 0 0 0 (-5) 5 ∧ q = Sample.pt .line 10 0 ∧ r = Sample.pt .line 10 10 ∧
      ((∀ x ∈ [p, q, r], x.ptype = .line ∨ x.ptype = .curve) ∧ p.ptype = .curve) ∧
      (closedPairs (backFromSk p q [r])).map polygon ≠ (closedPairs [p, q, r]).map polygon := by
    refine ⟨_, _, _, rfl, rfl, rfl, ?_⟩
    decide +kernel
  obtain ⟨p, q, r, -, -, -, ⟨h1, h2⟩, h3⟩ := h
  obtain ⟨path, h4, h5⟩ := skia_back conic p q [r] ⟨h1, fun e => by rw [h2] at e; cases e⟩
  exact ⟨_, _, path, h1, rfl, h4, h5, h3⟩

/-- A closed contour of a single curve point (a loop) makes the conversion back panic. -/
theorem C53_false_single (conic : ConicToQuads) (p : Point PD) (hp : p.ptype = .curve) :
    ∃ path, toSkiaPath id id [p] = some path ∧ (outlineFromSkia conic path : R (Outline PD)) = .panic := by
  refine ⟨_, rfl, ?_⟩
  have hs : skClosing id id p ([].getLastD p) = [.cubic (outPos p) (inPos p) (p.x, p.y), .close] := by
    unfold skClosing
    rw [if_neg (by rw [hp]; decide), if_neg (by rw [hp]; decide)]
    rw [show ([] : List (Point PD)).getLastD p = p from rfl, skSegment_last p p hp]
    rfl
  have hi : skIter (Flt.zero, Flt.zero) (Flt.zero, Flt.zero) (.move (id p.x, id p.y) :: skSegments id id p [] ++ skClosing id id p ([].getLastD p)) =
      [.move (p.x, p.y), .cubic (p.x, p.y) (outPos p) (inPos p) (p.x, p.y), .close] := by
    rw [hs]
    simp [skSegments, skIter, needsLine_self]
  unfold outlineFromSkia splitSkiaPath
  rw [hi, skSplit_some (p := ⟨.move, [(p.x, p.y)], none⟩) rfl, if_pos rfl,
    skSplit_some (p := ⟨.curve, [(p.x, p.y), outPos p, inPos p, (p.x, p.y)], none⟩) rfl, if_neg (fun h => nomatch h)]
  rfl

/-- A closed contour of lines whose last point is on top of the first one loses its last point. -/
theorem C53_false_duplicate (conic : ConicToQuads) : ∃ (c c' : Contour Unit) (path : List SkEl),
    (∀ p ∈ c, p.ptype = .line) ∧ c.length = 4 ∧
    toSkiaPath id id c = some path ∧ outlineFromSkia conic path = .ok [c'] ∧ c'.length = 3 := by
  refine ⟨[Sample.pt .line 0 0, Sample.pt .line 10 0, Sample.pt .line 10 10, Sample.pt .line 0 0], _, _, ?_, rfl, rfl, rfl, rfl⟩
  simp [Sample.pt]

/-- A contour with lines and curves that meets the hypotheses of `C53_partial`. -/
example : ∃ p q r : Point Unit, p.ptype = .line ∧ q.ptype = .curve ∧ ClosedMixed p q [r] ∧ ¬ (p.ptype = .curve ∧ q.ptype = .line) := by
  refine ⟨Sample.pt .line 0 0, Sample.cv 10 0 10 0 5 5, Sample.pt .line 10 10, rfl, rfl, ⟨?_, ?_⟩, ?_⟩
  · decide +kernel
  · intro _ z hz
    cases hz
    decide +kernel
  · decide +kernel

end GP
