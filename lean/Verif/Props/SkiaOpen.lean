import Verif.Props.Skia
import Verif.Lemmas.SkiaOpen
/-!
# Open contours as Skia paths (C66)
-/
open Fl
namespace GP
variable {PD : Type}
open Spec

theorem polygon_openStart (p q z : Point PD) : polygon (openStart p q, z) = polygon (fromSk p q, z) := rfl

theorem normZero_of_feq {x y : F32} (h : x.feq y = true) : x.normZero = y.normZero := by
  cases x with
  | nan => simp [Flt.feq] at h
  | num s k hk =>
    cases y with
    | nan => simp [Flt.feq] at h
    | num s' k' hk' =>
      simp only [Flt.feq, Bool.and_eq_true, beq_iff_eq, Bool.or_eq_true] at h
      obtain ⟨rfl, h⟩ := h
      unfold Flt.normZero
      rcases h with rfl | rfl
      · rfl
      · simp

/-- The last segment, up to the signs of zeros. -/
theorem polygon_openEnd (y e : Point PD) : (polygon (fromSk y e, openEnd e)).unsigned = (polygon (y, e)).unsigned := by
  unfold openEnd
  by_cases he : e.ptype = .curve
  · rw [if_pos he]
    have hs : ∀ h : Handle, polygon (fromSk y e, ({ x := e.x, y := e.y, ptype := .curve, b := h } : Point PD)) =
        ((y.x, y.y), outPos y, inPos ({ x := e.x, y := e.y, ptype := .curve, b := h } : Point PD), (e.x, e.y)) := by
      intro h
      simp [polygon, segment, fromSk, he, outPos, Handle.ofSk]
    have hr : polygon (y, e) = ((y.x, y.y), outPos y, inPos e, (e.x, e.y)) := by simp [polygon, segment, he]
    rw [hs, hr]
    by_cases h : (e.x.feq (inPos e).1 && e.y.feq (inPos e).2) = true
    · rw [if_pos h]
      simp only [Bool.and_eq_true] at h
      have h1 := normZero_of_feq h.1
      have h2 := normZero_of_feq h.2
      simp only [Poly.unsigned, ← h1, ← h2]
      rfl
    · rw [if_neg h]
      rfl
  · rw [if_neg he]
    unfold polygon
    simp [he, fromSk]

theorem polygons_open (l : List (Point PD)) : ∀ (p e : Point PD),
    (openPairs (List.zipWith fromSk (p :: l) (l ++ [e]) ++ [openEnd e])).map (fun x => (polygon x).unsigned) =
      (openPairs (p :: l ++ [e])).map fun x => (polygon x).unsigned := by
  induction l with
  | nil =>
    intro p e
    show [_] = [_]
    exact congrArg (fun z => [z]) (polygon_openEnd p e)
  | cons q l ih =>
    intro p e
    have := ih q e
    cases l with
    | nil =>
      have h1 : (polygon (fromSk p q, fromSk q e)).unsigned = (polygon (p, q)).unsigned := by rw [polygon_fromSk]
      show _ :: _ = _ :: _
      exact congr (congrArg List.cons h1) this
    | cons r l =>
      have h1 : (polygon (fromSk p q, fromSk q r)).unsigned = (polygon (p, q)).unsigned := by rw [polygon_fromSk]
      show _ :: _ = _ :: _
      exact congr (congrArg List.cons h1) this

theorem backOpen_polygons (p : Point PD) (l : List (Point PD)) (e : Point PD) :
    (openPairs (backOpen p l e)).map (fun x => (polygon x).unsigned) = (openPairs (p :: l ++ [e])).map fun x => (polygon x).unsigned := by
  rw [← polygons_open l p e]
  cases l with
  | nil => rfl
  | cons q l => cases l <;> rfl

theorem backOpen_places (p : Point PD) (l : List (Point PD)) (e : Point PD) :
    (backOpen p l e).map (fun z => (z.x, z.y)) = (p :: l ++ [e]).map fun z => (z.x, z.y) := by
  have he : ((openEnd e).x, (openEnd e).y) = (e.x, e.y) := by unfold openEnd; split <;> rfl
  have key : ∀ (l : List (Point PD)) (q : Point PD), (List.zipWith fromSk (q :: l) (l ++ [e])).map (fun z => (z.x, z.y)) =
      (q :: l).map fun z => (z.x, z.y) := by
    intro l
    induction l with
    | nil => intro q; rfl
    | cons a l ih =>
      intro q
      rw [List.cons_append, List.zipWith_cons_cons, List.map_cons, ih a]
      rfl
  cases l with
  | nil => simp [backOpen, openStart, he]
  | cons q l =>
    rw [backOpen, List.map_cons, List.map_append, key l q]
    simp [openStart, he]

/-- The types that come back, of the points after the first. -/
theorem backOpen_types (p : Point PD) (l : List (Point PD)) (e : Point PD) (hp : p.ptype = .move)
    (h : ∀ x ∈ l ++ [e], x.ptype = .line ∨ x.ptype = .curve) :
    (backOpen p l e).map (·.ptype) = (p :: l ++ [e]).map (·.ptype) ↔ ∀ x ∈ openPairs (l ++ [e]), ¬ (x.1.ptype = .line ∧ x.2.ptype = .curve) := by
  have he : (openEnd e).ptype = e.ptype := by
    unfold openEnd
    rcases h e (by simp) with h | h <;> simp [h]
  have key : ∀ (l : List (Point PD)) (q : Point PD), (∀ x ∈ q :: l ++ [e], x.ptype = .line ∨ x.ptype = .curve) →
      ((List.zipWith fromSk (q :: l) (l ++ [e])).map (·.ptype) = (q :: l).map (·.ptype) ↔
        ∀ x ∈ openPairs (q :: l ++ [e]), ¬ (x.1.ptype = .line ∧ x.2.ptype = .curve)) := by
    intro l
    induction l with
    | nil =>
      intro q hq
      have hx : openPairs (q :: [] ++ [e]) = [(q, e)] := rfl
      rw [hx]
      rcases hq q (by simp) with h1 | h1 <;> rcases hq e (by simp) with h2 | h2 <;> simp [fromSk, h1, h2]
    | cons a l ih =>
      intro q hq
      have hx : openPairs (q :: a :: l ++ [e]) = (q, a) :: openPairs (a :: l ++ [e]) := rfl
      rw [hx, List.cons_append, List.zipWith_cons_cons, List.map_cons, List.map_cons, List.cons.injEq,
        ih a (fun x hx => hq x (List.mem_cons_of_mem _ hx)), List.forall_mem_cons]
      refine and_congr ?_ Iff.rfl
      rcases hq q (by simp) with h1 | h1 <;> rcases hq a (by simp) with h2 | h2 <;> simp [fromSk, h1, h2]
  cases l with
  | nil =>
    simp [backOpen, openStart, he, hp, openPairs]
  | cons q l =>
    rw [backOpen, List.map_cons, List.map_append, List.cons_append (as := q :: l), List.map_cons (l := q :: l ++ [e]), List.map_append (l₁ := q :: l)]
    have h1 : (openStart p q).ptype = p.ptype := hp.symm
    rw [h1, List.cons.injEq]
    simp only [true_and, List.map_cons, List.map_nil, he]
    rw [List.append_cancel_right_eq]
    exact key l q h

/-- The points after the first, with the last one apart. -/
theorem split_last (q : Point PD) (rest : Contour PD) : ∃ l e, q :: rest = l ++ [e] :=
  ⟨(q :: rest).dropLast, (q :: rest).getLast (by simp), (List.dropLast_append_getLast (by simp)).symm⟩

/-- **C66.** Going to a Skia path and back, an open contour of lines and curves keeps its points and the
control polygons of its segments (up to the signs of zeros); it stays open; and its types stay the same
exactly if no line point is followed by a curve point. -/
theorem C66_open (conic : ConicToQuads) (p q : Point PD) (rest : Contour PD) (h : OpenMixed p q rest) :
    ∃ (path : List SkEl) (c' : Contour PD), toSkiaPath id id (p :: q :: rest) = some path ∧ outlineFromSkia conic path = .ok [c'] ∧
      (c'.map fun z => (z.x, z.y)) = (p :: q :: rest).map (fun z => (z.x, z.y)) ∧
      (openPairs c').map (fun x => (polygon x).unsigned) = (openPairs (p :: q :: rest)).map (fun x => (polygon x).unsigned) ∧
      isOpen c' = true ∧
      ((c'.map (·.ptype)) = (p :: q :: rest).map (·.ptype) ↔ ∀ x ∈ openPairs (q :: rest), ¬ (x.1.ptype = .line ∧ x.2.ptype = .curve)) := by
  obtain ⟨l, e, he⟩ := split_last q rest
  have hb := skia_back_open conic [(p, l, e)] (fun x hx => by
    cases List.mem_singleton.1 hx
    exact ⟨h.move, he ▸ h.lc, h.num⟩)
  rw [he]
  refine ⟨_, _, toSkiaPath_eq p (l ++ [e]), ?_, backOpen_places p l e, backOpen_polygons p l e, ?_, backOpen_types p l e h.move (he ▸ h.lc)⟩
  · simpa using hb
  · cases l with
    | nil => rfl
    | cons a l => cases l <;> rfl

/-- The same for all contours of an outline at once, through the path of its open contours. -/
theorem C66_outline (conic : ConicToQuads) (o : Outline PD) (hne : o ≠ [])
    (h : ∀ c ∈ o, ∃ p q rest, c = p :: q :: rest ∧ OpenMixed p q rest) :
    ∃ (path : List SkEl) (o' : Outline PD), toSkiaPaths id id o = (some path, none) ∧ outlineFromSkia conic path = .ok o' ∧
      (o'.map fun c => c.map fun z => (z.x, z.y)) = (o.map fun c => c.map fun z => (z.x, z.y)) ∧
      o'.map (fun c => (openPairs c).map fun x => (polygon x).unsigned) = o.map fun c => (openPairs c).map fun x => (polygon x).unsigned := by
  obtain ⟨l, rfl, hl⟩ : ∃ l : List (Point PD × List (Point PD) × Point PD), o = (l.map fun x => x.1 :: (x.2.1 ++ [x.2.2])) ∧
      ∀ x ∈ l, x.1.ptype = .move ∧ (∀ y ∈ x.2.1 ++ [x.2.2], y.ptype = .line ∨ y.ptype = .curve) ∧ x.1.x.isNaN = false ∧ x.1.y.isNaN = false := by
    clear hne
    induction o with
    | nil => exact ⟨[], rfl, fun x hx => nomatch hx⟩
    | cons c o ih =>
      obtain ⟨l, rfl, hl⟩ := ih fun d hd => h d (List.mem_cons_of_mem _ hd)
      obtain ⟨p, q, rest, rfl, h1⟩ := h c (List.mem_cons_self ..)
      obtain ⟨m, e, he⟩ := split_last q rest
      refine ⟨(p, m, e) :: l, by rw [List.map_cons, he], fun x hx => ?_⟩
      rcases List.mem_cons.1 hx with rfl | hx
      · exact ⟨h1.move, he ▸ h1.lc, h1.num⟩
      · exact hl x hx
  refine ⟨_, _, ?_, skia_back_open conic l hl, ?_, ?_⟩
  · rw [toSkiaPaths_eq]
    have f1 : (l.map fun x => x.1 :: (x.2.1 ++ [x.2.2])).filter (fun c => !openContour c) = [] := by
      rw [List.filter_eq_nil_iff]
      intro c hc
      obtain ⟨x, hx, rfl⟩ := List.mem_map.1 hc
      simp [openContour, (hl x hx).1]
    have f2 : (l.map fun x => x.1 :: (x.2.1 ++ [x.2.2])).filter openContour =
        l.map fun x => x.1 :: (x.2.1 ++ [x.2.2]) := by
      rw [List.filter_eq_self]
      intro c hc
      obtain ⟨x, hx, rfl⟩ := List.mem_map.1 hc
      simp [openContour, (hl x hx).1]
    have f3 : (l.map fun x => x.1 :: (x.2.1 ++ [x.2.2])).filterMap (toSkiaPath id id) = l.map fun x => skPath x.1 (x.2.1 ++ [x.2.2]) := by
      rw [List.filterMap_map]
      exact List.filterMap_eq_map ▸ rfl
    simp only [f1, f2, f3, skNonempty]
    rw [if_neg]
    · rfl
    · cases l with
      | nil => exact absurd rfl hne
      | cons x l => simp [skPath]
  · rw [List.map_map, List.map_map]
    exact List.map_congr_left fun x _ => backOpen_places x.1 x.2.1 x.2.2
  · rw [List.map_map, List.map_map]
    exact List.map_congr_left fun x _ => backOpen_polygons x.1 x.2.1 x.2.2

/-- A contour of a single move point is lost if it comes last: `path::Iter` leaves out a last `move_to`. -/
theorem C66_lone_move (conic : ConicToQuads) (p : Point PD) (hp : p.ptype = .move) :
    ∃ path, toSkiaPath id id [p] = some path ∧ (outlineFromSkia conic path : R (Outline PD)) = .ok [] := by
  refine ⟨_, toSkiaPath_eq p [], ?_⟩
  rw [skPath_open p [] hp]
  rfl

/-- A contour whose first point is not a number gets a second one, because NaNs differ from themselves. -/
theorem C66_nan (conic : ConicToQuads) : ∃ (c c' : Contour Unit) (path : List SkEl), c.length = 2 ∧
    toSkiaPath id id c = some path ∧ outlineFromSkia conic path = .ok [c'] ∧ c'.length = 3 :=
  ⟨[{ x := .nan, y := .nan, ptype := .move }, Sample.pt .line 10 0], _, _, rfl, rfl, rfl, rfl⟩

/-- An open contour with lines and curves that meets the hypotheses of `C66_open`. -/
example : ∃ p q r : Point Unit, q.ptype = .curve ∧ OpenMixed p q [r] := by
  refine ⟨Sample.pt .move 0 0, Sample.cv 10 0 10 0 5 5, Sample.pt .line 10 10, rfl, ⟨rfl, ?_, ?_⟩⟩
  · decide +kernel
  · decide +kernel

/-- The types do change sometimes. -/
example : ∃ x : Point Unit × Point Unit, x ∈ openPairs [Sample.pt .line 0 0, Sample.cv 10 0 10 0 5 5] ∧ x.1.ptype = .line ∧ x.2.ptype = .curve :=
  ⟨_, List.mem_cons_self .., rfl, rfl⟩

end GP
