import Verif.Spec.Skia
/-!
# Lemmas on Skia paths
-/
open Fl
namespace GP
variable {PD : Type}
open Spec

/-- The verb drawing a segment. -/
def verbOf (x : Point PD × Point PD) : SkVerb :=
  if x.2.ptype = .curve then .cubic (x.1.x, x.1.y) (outPos x.1) (inPos x.2) (x.2.x, x.2.y)
  else .line (x.1.x, x.1.y) (x.2.x, x.2.y)

/-- The element of a segment. -/
def itemOf (x : Point PD × Point PD) : SkPt :=
  if x.2.ptype = .curve then ⟨.curve, [(x.1.x, x.1.y), outPos x.1, inPos x.2, (x.2.x, x.2.y)], none⟩
  else ⟨.line, [(x.1.x, x.1.y), (x.2.x, x.2.y)], none⟩

theorem verbOf_pt (x : Point PD × Point PD) : (verbOf x).pt = some (itemOf x) := by
  unfold verbOf itemOf
  split <;> rfl

theorem itemOf_ptype (x : Point PD × Point PD) : (itemOf x).ptype = if x.2.ptype = .curve then .curve else .line := by
  unfold itemOf
  split <;> rfl

theorem needsLine_self (p : SkPoint) : needsLine p p = false := by
  obtain ⟨x, y⟩ := p
  have h : ∀ z : F32, z.isNaN = false → z.feq z = true := by
    intro z hz
    cases z with
    | nan => simp [Flt.isNaN] at hz
    | num s k hk => simp [Flt.feq]
  unfold needsLine
  by_cases hx : x.isNaN = true
  · simp [hx]
  · by_cases hy : y.isNaN = true
    · simp [hy]
    · simp [h x (by simpa using hx), h y (by simpa using hy)]

theorem skIter_segments (l : List (Point PD)) : ∀ (p : Point PD) (start : SkPoint) (tail : List SkEl),
    (∀ x ∈ l, x.ptype = .line ∨ x.ptype = .curve) →
    skIter (p.x, p.y) start (skSegments id id p l ++ tail) =
      ((p :: l).zip l).map verbOf ++ skIter ((l.getLastD p).x, (l.getLastD p).y) start tail := by
  induction l with
  | nil => intros; rfl
  | cons q l ih =>
    intro p start tail h
    have hr := ih q start tail fun x hx => h x (List.mem_cons_of_mem _ hx)
    rw [skSegments, List.append_assoc, List.zip_cons_cons, List.map_cons, List.cons_append, List.getLastD_cons]
    rcases h q (List.mem_cons_self ..) with hq | hq
    · simp only [skSegment, hq, verbOf, List.singleton_append]
      exact congrArg _ hr
    · simp only [skSegment, hq, verbOf, List.singleton_append]
      exact congrArg _ hr

theorem skSplit_some {v : SkVerb} {p : SkPt} (h : v.pt = some p) (o : List (List SkPt)) (c : List SkPt) (rest : List SkVerb) :
    skSplit o c (v :: rest) = if p.ptype = .move then skSplit (if c.isEmpty then o else o ++ [c]) [p] rest
      else skSplit o (c ++ [p]) rest := by
  rw [skSplit.eq_def]
  simp only [h]

theorem skSplit_close (o : List (List SkPt)) (a : SkPt) (c : List SkPt) (rest : List SkVerb) :
    skSplit o (a :: c) (.close :: rest) = skSplit o c rest := by
  rw [skSplit.eq_def]
  simp only [SkVerb.pt]

theorem skSplit_segments (l : List (Point PD × Point PD)) : ∀ (o : List (List SkPt)) (c : List SkPt) (tail : List SkVerb),
    skSplit o c (l.map verbOf ++ tail) = skSplit o (c ++ l.map itemOf) tail := by
  induction l with
  | nil => intros; simp
  | cons x l ih =>
    intro o c tail
    rw [List.map_cons, List.cons_append, skSplit_some (verbOf_pt x)]
    have : (itemOf x).ptype ≠ .move := by
      rw [itemOf_ptype]
      split <;> decide
    simp only [this, if_false]
    rw [ih, List.map_cons, List.append_assoc]
    rfl

theorem conics_one (conic : ConicToQuads) (l : List (Point PD × Point PD)) :
    (Out.mapM' (conicToCubic conic) (l.map itemOf) >>= fun l => (Out.ok l.flatten : R (List SkPt))) = .ok (l.map itemOf) := by
  have h : Out.mapM' (conicToCubic conic) (l.map itemOf) = .ok ((l.map itemOf).map fun p => [p]) := by
    apply Out.mapM'_ok
    intro p hp
    obtain ⟨x, -, rfl⟩ := List.mem_map.1 hp
    unfold conicToCubic
    rw [if_neg]
    rw [itemOf_ptype]
    split <;> decide
  rw [h, Out.bind_ok]
  congr 1
  generalize l.map itemOf = m
  induction m with
  | nil => rfl
  | cons a m ih => simpa using ih

/-- A point as it comes back, by the type of the point and of the next one. -/
def fromSk (p q : Point PD) : Point PD :=
  { x := p.x, y := p.y, a := if q.ptype = .curve then Handle.ofSk (outPos p) else .colocated, b := if p.ptype = .curve then Handle.ofSk (inPos p) else .colocated, ptype := if p.ptype = .curve ∨ q.ptype = .curve then .curve else .line }

/-- What the last element does to the point before all others. -/
def lastToFirst (first : Point PD × Point PD) (e : Point PD) (c0 : Point PD) : Point PD :=
  if e.ptype = .curve then { c0 with a := if first.2.ptype = .curve then Handle.ofSk (outPos first.1) else c0.a, b := Handle.ofSk (inPos e) }
  else c0

theorem skPointAt_item (first x : Point PD × Point PD) (o p q : Point PD) (c0 : Point PD) (cs : Contour PD) (i : Nat) (isLast : Bool) (hi : i ≠ 0) (hx : x = (o, p)) :
    skPointAt (itemOf first) (itemOf x) (c0 :: cs) i isLast (itemOf (p, q)) =
      .ok ((if isLast then lastToFirst first q c0 else c0) :: (cs ++ [fromSk p q])) := by
  subst hx
  unfold skPointAt lastToFirst fromSk
  by_cases hp : p.ptype = .curve <;> by_cases hq : q.ptype = .curve <;> cases isLast <;>
    by_cases hf : first.2.ptype = .curve <;> simp [itemOf, hp, hq, hf, hi]

theorem skPoints_items (first : Point PD × Point PD) (l : List (Point PD)) : ∀ (o p e c0 : Point PD) (cs : Contour PD) (i : Nat), i ≠ 0 →
    skPoints (itemOf first) (itemOf (o, p)) (c0 :: cs) i (((p :: l).zip (l ++ [e])).map itemOf) =
      .ok (lastToFirst first e c0 :: (cs ++ List.zipWith fromSk (p :: l) (l ++ [e]))) := by
  induction l with
  | nil =>
    intro o p e c0 cs i hi
    simp only [List.nil_append, List.zip_cons_cons, List.zip_nil_left, List.map_cons, List.map_nil, skPoints, List.isEmpty_nil]
    rw [skPointAt_item first _ o p e c0 cs i true hi rfl]
    simp
  | cons q l ih =>
    intro o p e c0 cs i hi
    simp only [List.cons_append, List.zip_cons_cons, List.map_cons, skPoints]
    rw [skPointAt_item first _ o p q c0 cs i _ hi rfl]
    have hne : (((q :: l).zip (l ++ [e])).map itemOf).isEmpty = false := by
      cases l <;> rfl
    rw [hne, Out.bind_ok]
    have := ih p q e c0 (cs ++ [fromSk p q]) (i + 1) (by omega)
    simp only [Bool.false_eq_true, if_false]
    rw [this, List.append_assoc]
    rfl

/-- What comes back. -/
def backFromSk (p q : Point PD) (rest : Contour PD) : Contour PD :=
  { fromSk p q with ptype := if q.ptype = .curve then .curve else .line } :: List.zipWith fromSk (q :: rest) (rest ++ [p])

theorem fromSkContour_items (p q : Point PD) (rest : Contour PD) :
    fromSkContour (((p :: q :: rest).zip (q :: rest ++ [p])).map itemOf) = .ok (backFromSk p q rest) := by
  obtain ⟨z, hz⟩ : ∃ z, ((q :: rest).zip (rest ++ [p])).getLastD (p, q) = (z, p) := by
    have key : ∀ (l : List (Point PD)) (o q : Point PD), ∃ z, ((q :: l).zip (l ++ [p])).getLastD (o, q) = (z, p) := by
      intro l
      induction l with
      | nil => intro o q; exact ⟨q, rfl⟩
      | cons a l ih =>
        intro o q
        rw [List.cons_append, List.zip_cons_cons, List.getLastD_cons]
        exact ih q a
    exact key rest p q
  have hlast : (((q :: rest).zip (rest ++ [p])).map itemOf).getLastD (itemOf (p, q)) = itemOf (z, p) := by
    rw [← hz]
    generalize (q :: rest).zip (rest ++ [p]) = m
    rw [List.getLastD_eq_getLast?, List.getLastD_eq_getLast?, List.getLast?_map]
    cases m.getLast? <;> rfl
  simp only [List.cons_append, List.zip_cons_cons, List.map_cons, fromSkContour]
  rw [hlast, skPoints]
  have h0 : skPointAt (itemOf (p, q)) (itemOf (z, p)) ([] : Contour PD) 0 false (itemOf (p, q)) =
      .ok [{ fromSk p q with ptype := (if q.ptype = .curve then .curve else .line), b := if q.ptype = .curve ∧ p.ptype = .curve then Handle.ofSk (inPos p) else .colocated }] := by
    unfold skPointAt fromSk
    by_cases hp : p.ptype = .curve <;> by_cases hq : q.ptype = .curve <;> simp [itemOf, hp, hq]
  have hne : (((q :: rest).zip (rest ++ [p])).map itemOf).isEmpty = false := by
    cases rest <;> rfl
  rw [hne, h0, Out.bind_ok, skPoints_items (p, q) rest p q p _ [] (0 + 1) (by omega)]
  have hfin : ∀ b : Handle, lastToFirst (p, q) p { fromSk p q with ptype := (if q.ptype = .curve then .curve else .line), b := if q.ptype = .curve ∧ p.ptype = .curve then Handle.ofSk (inPos p) else .colocated } =
      { fromSk p q with ptype := if q.ptype = .curve then .curve else .line } := by
    intro _
    unfold lastToFirst fromSk
    by_cases hp : p.ptype = .curve <;> by_cases hq : q.ptype = .curve <;> simp [hp, hq]
  rw [hfin .colocated, Out.bind_ok, List.nil_append, if_neg]
  · rfl
  · simp only [List.head?_cons, Option.any_some, decide_eq_true_eq]
    split <;> decide

theorem skSegment_last (z p : Point PD) (hp : p.ptype = .curve) :
    skSegment id id z p = [.cubic (outPos z) (inPos p) (p.x, p.y)] := by
  simp only [skSegment, hp]
  rfl

/-- The path of a closed contour. -/
def skPath (p : Point PD) (rest : Contour PD) : List SkEl :=
  .move (id p.x, id p.y) :: skSegments id id p rest ++ skClosing id id p (rest.getLastD p)

/-- The elements of a closed contour. -/
def skItems (p q : Point PD) (rest : Contour PD) : List SkPt := ((p :: q :: rest).zip (q :: rest ++ [p])).map itemOf

theorem toSkiaPath_eq (p : Point PD) (rest : Contour PD) : toSkiaPath id id (p :: rest) = some (skPath p rest) := rfl

theorem skIter_closed (p q : Point PD) (rest : Contour PD) (h : ClosedMixed p q rest) (last start : SkPoint) (tail : List SkEl) :
    skIter last start (skPath p (q :: rest) ++ tail) =
      .move (p.x, p.y) :: (((p :: q :: rest).zip (q :: rest ++ [p])).map verbOf ++ .close :: skIter (p.x, p.y) (p.x, p.y) tail) := by
  have hm : p.ptype ≠ .move := by
    rcases h.lc p (List.mem_cons_self ..) with e | e <;> rw [e] <;> decide
  have hchain : ∀ (l : List (Point PD)) (o : Point PD), ((o :: l).zip l).map verbOf ++ [verbOf (l.getLastD o, p)] =
      ((o :: l).zip (l ++ [p])).map verbOf := by
    intro l
    induction l with
    | nil => intro o; rfl
    | cons a l ih =>
      intro o
      rw [List.zip_cons_cons, List.map_cons, List.cons_append, List.getLastD_cons, ih a]
      rfl
  unfold skPath
  generalize hz : (q :: rest).getLastD p = z
  have ht : skClosing id id p z = (if p.ptype = .line then [] else skSegment id id z p) ++ [.close] := by
    unfold skClosing
    rw [if_neg hm]
  rw [List.append_assoc, List.cons_append]
  have hne : (skSegments id id p (q :: rest) ++ (skClosing id id p z ++ tail)).isEmpty = false := by
    rw [ht]
    simp
  rw [skIter, hne]
  simp only [Bool.false_eq_true, if_false, id]
  have := skIter_segments (q :: rest) p (p.x, p.y) (skClosing id id p z ++ tail) fun x hx => h.lc x (List.mem_cons_of_mem _ hx)
  rw [this, ← hchain (q :: rest) p, List.append_assoc, hz]
  congr 2
  rcases h.lc p (List.mem_cons_self ..) with e | e
  · have ha := h.apart e z (by
      rw [List.getLastD_eq_getLast?] at hz
      cases hg : (q :: rest).getLast? with
      | none => simp at hg
      | some w =>
        rw [hg] at hz
        exact hz ▸ rfl)
    rw [ht, if_pos e]
    simp only [List.nil_append, List.singleton_append, skIter]
    have hn : needsLine (z.x, z.y) (p.x, p.y) = true := by
      unfold needsLine
      obtain ⟨h1, h2⟩ := ha
      simp only [Bool.or_eq_false_iff] at h1
      simp only [h1, h2, Bool.or_false, Bool.not_false, Bool.and_self]
    rw [hn]
    simp [verbOf, e]
  · rw [ht, if_neg (by rw [e]; decide), skSegment_last z p e]
    simp only [List.cons_append, List.nil_append]
    rw [skIter, skIter, needsLine_self]
    simp [verbOf, e]

theorem skSplit_closed (p q : Point PD) (rest : Contour PD) (o : List (List SkPt)) (c : List SkPt) (tail : List SkVerb) :
    skSplit o c (.move (p.x, p.y) :: (((p :: q :: rest).zip (q :: rest ++ [p])).map verbOf ++ .close :: tail)) =
      skSplit (if c.isEmpty then o else o ++ [c]) (skItems p q rest) tail := by
  rw [skSplit_some (p := ⟨.move, [(p.x, p.y)], none⟩) rfl, if_pos rfl, skSplit_segments, List.singleton_append, skSplit_close]
  rfl

/-- The whole way to Skia and back, for the contours `p :: q :: rest` of a list. -/
theorem skia_back_all (conic : ConicToQuads) (l : List (Point PD × Point PD × Contour PD))
    (h : ∀ x ∈ l, ClosedMixed x.1 x.2.1 x.2.2) :
    outlineFromSkia conic (l.map fun x => skPath x.1 (x.2.1 :: x.2.2)).flatten = .ok (l.map fun x => backFromSk x.1 x.2.1 x.2.2) := by
  have hsplit : ∀ (last start : SkPoint) (o : List (List SkPt)) (c : List SkPt),
      skSplit o c (skIter last start (l.map fun x => skPath x.1 (x.2.1 :: x.2.2)).flatten) =
        .ok ((if c.isEmpty then o else o ++ [c]) ++ l.map fun x => skItems x.1 x.2.1 x.2.2) := by
    induction l with
    | nil => intro last start o c; simp [skIter, skSplit]
    | cons x l ih =>
      intro last start o c
      rw [List.map_cons, List.flatten_cons, skIter_closed _ _ _ (h x (List.mem_cons_self ..)), skSplit_closed,
        ih fun y hy => h y (List.mem_cons_of_mem _ hy)]
      have hne : (skItems x.1 x.2.1 x.2.2).isEmpty = false := rfl
      rw [hne]
      simp
  have hconic : conicsToCubics conic (l.map fun x => skItems x.1 x.2.1 x.2.2) = .ok (l.map fun x => skItems x.1 x.2.1 x.2.2) := by
    unfold conicsToCubics
    have := Out.mapM'_ok (f := fun c => (Out.mapM' (conicToCubic conic) c >>= fun l => (Out.ok l.flatten : R (List SkPt))))
      (g := id) (l := l.map fun x => skItems x.1 x.2.1 x.2.2) (by
        intro a ha
        obtain ⟨x, -, rfl⟩ := List.mem_map.1 ha
        exact conics_one conic _)
    rw [List.map_id] at this
    exact this
  unfold outlineFromSkia splitSkiaPath
  rw [hsplit]
  simp only [List.isEmpty_nil, if_true, List.nil_append, Out.bind_ok]
  rw [hconic, Out.bind_ok]
  have hb : ∀ x : Point PD × Point PD × Contour PD, fromSkContour (skItems x.1 x.2.1 x.2.2) = .ok (backFromSk x.1 x.2.1 x.2.2) :=
    fun x => fromSkContour_items _ _ _
  clear hsplit hconic h
  induction l with
  | nil => rfl
  | cons x l ih => rw [List.map_cons, Out.mapM'_cons, hb, Out.bind_ok, ih]; rfl

theorem skia_back (conic : ConicToQuads) (p q : Point PD) (rest : Contour PD) (h : ClosedMixed p q rest) :
    ∃ path, toSkiaPath id id (p :: q :: rest) = some path ∧ outlineFromSkia conic path = .ok [backFromSk p q rest] := by
  refine ⟨_, toSkiaPath_eq p (q :: rest), ?_⟩
  have := skia_back_all conic [(p, q, rest)] (fun x hx => by cases List.mem_singleton.1 hx; exact h)
  simpa using this

/-! ## The paths of an outline -/

theorem skPathsLoop_eq (fx fy : F32 → F32) (o : Outline PD) : ∀ op cl, skPathsLoop fx fy op cl o =
    (op ++ ((o.filter openContour).filterMap (toSkiaPath fx fy)).flatten,
      cl ++ ((o.filter fun c => !openContour c).filterMap (toSkiaPath fx fy)).flatten) := by
  induction o with
  | nil => intro op cl; simp [skPathsLoop]
  | cons c o ih =>
    intro op cl
    cases c with
    | nil => rw [skPathsLoop, ih]; rfl
    | cons p c =>
      rw [skPathsLoop]
      by_cases h : p.ptype = .move
      · simp [h, ih, openContour, toSkiaPath]
      · simp [h, ih, openContour, toSkiaPath]

theorem toSkiaPaths_eq (fx fy : F32 → F32) (o : Outline PD) : toSkiaPaths fx fy o =
    (skNonempty ((o.filter openContour).filterMap (toSkiaPath fx fy)).flatten,
      skNonempty ((o.filter fun c => !openContour c).filterMap (toSkiaPath fx fy)).flatten) := by
  unfold toSkiaPaths
  rw [skPathsLoop_eq]
  rfl

end GP
