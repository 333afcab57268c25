import Verif.Props.Skia
/-!
# C53: exactly which closed contours are drawn the same after Skia
-/
open Fl
namespace GP
variable {PD : Type}
open Spec

/-- The segments of a contour that came back, but for the last one. -/
theorem closedPairs_split (p q : Point PD) (rest : Contour PD) :
    closedPairs (p :: q :: rest) = (p :: q :: rest).zip (q :: rest) ++ [((q :: rest).getLast (by simp), p)] := by
  have key : ∀ (l : List (Point PD)) (a e : Point PD), (a :: l).zip (l ++ [e]) = (a :: l).zip l ++ [((a :: l).getLast (by simp), e)] := by
    intro l
    induction l with
    | nil => intro a e; rfl
    | cons b l ih =>
      intro a e
      have := ih b e
      simp only [List.cons_append, List.zip_cons_cons] at this ⊢
      rw [this]
      rfl
  have := key (q :: rest) p p
  unfold closedPairs
  simp only [List.tail_cons, List.take_succ_cons, List.take_zero]
  rw [this]
  rfl

theorem polygons_fromSk_inner (l : List (Point PD)) : ∀ (p e : Point PD),
    ((List.zipWith fromSk (p :: l) (l ++ [e])).zip (List.zipWith fromSk (p :: l) (l ++ [e])).tail).map polygon =
      ((p :: l).zip l).map polygon := by
  induction l with
  | nil => intro p e; rfl
  | cons q l ih =>
    intro p e
    have := ih q e
    cases l with
    | nil => simp [polygon_fromSk]
    | cons a l =>
      simp only [List.cons_append, List.zipWith_cons_cons, List.tail_cons, List.zip_cons_cons, List.map_cons, polygon_fromSk] at this ⊢
      rw [this]

/-- **C53**, exactly: a closed contour of lines and curves (with no last line of no length) keeps the
control polygons of all its segments through Skia, if and only if it does not begin with a curve point
that is followed by a line point and has a closing curve that is not straight. -/
theorem C53_exact (conic : ConicToQuads) (p q : Point PD) (rest : Contour PD) (h : ClosedMixed p q rest) :
    ∃ (path : List SkEl) (c' : Contour PD), toSkiaPath id id (p :: q :: rest) = some path ∧ outlineFromSkia conic path = .ok [c'] ∧
      c'.length = (p :: q :: rest).length ∧
      ((closedPairs c').map polygon = (closedPairs (p :: q :: rest)).map polygon ↔
        (p.ptype = .curve → q.ptype = .line → inPos p = (p.x, p.y) ∧
          outPos ((q :: rest).getLast (by simp)) = (((q :: rest).getLast (by simp)).x, ((q :: rest).getLast (by simp)).y))) := by
  by_cases hb : p.ptype = .curve ∧ q.ptype = .line
  swap
  · obtain ⟨path, c', h1, h2, h3, h4⟩ := C53_partial conic p q rest h hb
    exact ⟨path, c', h1, h2, h3, fun _ e1 e2 => absurd ⟨e1, e2⟩ hb, fun _ => h4⟩
  obtain ⟨path, h1, h2⟩ := skia_back conic p q rest h
  refine ⟨path, _, h1, h2, by simp [backFromSk], ?_⟩
  obtain ⟨hp, hq⟩ := hb
  -- the contour that came back, with its points but for the first
  have hz : ∃ q' rest', List.zipWith fromSk (q :: rest) (rest ++ [p]) = q' :: rest' ∧
      (q' :: rest').getLast? = some (fromSk ((q :: rest).getLast (by simp)) p) := by
    have key : ∀ (l : List (Point PD)) (a : Point PD), (List.zipWith fromSk (a :: l) (l ++ [p])).getLast? =
        some (fromSk ((a :: l).getLast (by simp)) p) := by
      intro l
      induction l with
      | nil => intro a; rfl
      | cons b l ih =>
        intro a
        have := ih b
        rw [List.cons_append, List.zipWith_cons_cons, List.getLast?_cons, this]
        rfl
    have := key rest q
    cases hl : List.zipWith fromSk (q :: rest) (rest ++ [p]) with
    | nil => rw [hl] at this; cases this
    | cons a l => exact ⟨a, l, rfl, hl ▸ this⟩
  obtain ⟨q', rest', hz1, hz2⟩ := hz
  unfold backFromSk
  rw [hz1, closedPairs_split, closedPairs_split, List.map_append, List.map_append]
  have hlast : (q' :: rest').getLast (by simp) = fromSk ((q :: rest).getLast (by simp)) p := by
    rw [List.getLast?_eq_some_getLast (by simp)] at hz2
    exact Option.some.inj hz2
  rw [hlast]
  have hin : (({ fromSk p q with ptype := if q.ptype = .curve then .curve else .line } :: q' :: rest').zip (q' :: rest')).map polygon =
      ((p :: q :: rest).zip (q :: rest)).map polygon := by
    have := polygons_fromSk_inner (q :: rest) p p
    rw [List.cons_append, List.zipWith_cons_cons, hz1] at this
    simp only [List.tail_cons, List.zip_cons_cons, List.map_cons] at this ⊢
    rw [← this]
    rfl
  rw [hin, List.append_cancel_left_eq]
  generalize (q :: rest).getLast (by simp) = z
  simp only [hp, hq, List.map_cons, List.map_nil, List.cons.injEq, and_true, true_implies]
  unfold polygon segment fromSk
  simp only [hp, reduceCtorEq, if_false, if_true, Prod.mk.injEq, true_and, and_true]
  constructor
  · rintro ⟨e1, e2⟩
    exact ⟨e2.symm, e1.symm⟩
  · rintro ⟨e1, e2⟩
    exact ⟨e2.symm, e1.symm⟩

/-- A contour that meets the hypotheses and violates the condition, and one with a straight closing curve
that does not. -/
example : ∃ p q r p' : Point Unit, ClosedMixed p q [r] ∧ p.ptype = .curve ∧ q.ptype = .line ∧ inPos p ≠ (p.x, p.y) ∧
    ClosedMixed p' q [r] ∧ p'.ptype = .curve ∧ inPos p' = (p'.x, p'.y) ∧ outPos r = (r.x, r.y) := by
  refine ⟨Sample.cv 0 0 0 0 (-5) 5, Sample.pt .line 10 0, Sample.pt .line 10 10, Sample.pt .curve 0 0,
    ⟨?_, fun e => nomatch e⟩, rfl, rfl, ?_, ⟨?_, fun e => nomatch e⟩, rfl, rfl, rfl⟩
  · decide +kernel
  · decide +kernel
  · decide +kernel

end GP
