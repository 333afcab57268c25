import Verif.Lemmas.Skia
/-!
# Lemmas on open contours as Skia paths
-/
open Fl
namespace GP
variable {PD : Type}
open Spec

/-- The element of a `move_to`. -/
def moveItem (p : SkPoint) : SkPt := ⟨.move, [p], none⟩

/-- The point before all others after the last element of an open contour. -/
def lastToMove (e : Point PD) (c0 : Point PD) : Point PD :=
  if e.ptype = .curve then { c0 with b := Handle.ofSk (inPos e) } else c0

theorem skPointAt_open (s : SkPoint) (o p q : Point PD) (c0 : Point PD) (cs : Contour PD) (i : Nat) (isLast : Bool) (hi : i ≠ 0) :
    skPointAt (moveItem s) (itemOf (o, p)) (c0 :: cs) i isLast (itemOf (p, q)) =
      .ok ((if isLast then lastToMove q c0 else c0) :: (cs ++ [fromSk p q])) := by
  unfold skPointAt lastToMove fromSk moveItem
  by_cases hp : p.ptype = .curve <;> by_cases hq : q.ptype = .curve <;> cases isLast <;> simp [itemOf, hp, hq, hi]

/-- The previous element only matters if it is a curve. -/
theorem skPointAt_prev (first prev prev' : SkPt) (h : prev.ptype ≠ .curve) (h' : prev'.ptype ≠ .curve) (c : Contour PD) (i : Nat)
    (isLast : Bool) (cur : SkPt) : skPointAt first prev c i isLast cur = skPointAt first prev' c i isLast cur := by
  unfold skPointAt
  simp [h, h']

theorem skPoints_open (s : SkPoint) (l : List (Point PD)) : ∀ (o p e c0 : Point PD) (cs : Contour PD) (i : Nat), i ≠ 0 →
    skPoints (moveItem s) (itemOf (o, p)) (c0 :: cs) i (((p :: l).zip (l ++ [e])).map itemOf) =
      .ok (lastToMove e c0 :: (cs ++ List.zipWith fromSk (p :: l) (l ++ [e]))) := by
  induction l with
  | nil =>
    intro o p e c0 cs i hi
    simp only [List.nil_append, List.zip_cons_cons, List.zip_nil_left, List.map_cons, List.map_nil, skPoints, List.isEmpty_nil]
    rw [skPointAt_open s o p e c0 cs i true hi]
    simp
  | cons q l ih =>
    intro o p e c0 cs i hi
    simp only [List.cons_append, List.zip_cons_cons, List.map_cons, skPoints]
    rw [skPointAt_open s o p q c0 cs i _ hi]
    have hne : (((q :: l).zip (l ++ [e])).map itemOf).isEmpty = false := by
      cases l <;> rfl
    rw [hne, Out.bind_ok]
    have := ih p q e c0 (cs ++ [fromSk p q]) (i + 1) (by omega)
    simp only [Bool.false_eq_true, if_false]
    rw [this, List.append_assoc]
    rfl

/-- The last point as it comes back. -/
def openEnd (z : Point PD) : Point PD :=
  if z.ptype = .curve then
    { x := z.x, y := z.y, ptype := .curve, b := if z.x.feq (inPos z).1 && z.y.feq (inPos z).2 then .colocated else Handle.ofSk (inPos z) }
  else { x := z.x, y := z.y, ptype := .line }

/-- The first point as it comes back, by the type of the next one. -/
def openStart (p q : Point PD) : Point PD :=
  { x := p.x, y := p.y, ptype := .move, a := if q.ptype = .curve then Handle.ofSk (outPos p) else .colocated }

/-- What comes back, of the points `p :: l ++ [e]`. -/
def backOpen (p : Point PD) (l : List (Point PD)) (e : Point PD) : Contour PD :=
  match l with
  | [] => [openStart p e, openEnd e]
  | q :: l => openStart p q :: (List.zipWith fromSk (q :: l) (l ++ [e]) ++ [openEnd e])

/-- The elements of an open contour. -/
def openItems (p : Point PD) (l : List (Point PD)) (e : Point PD) : List SkPt :=
  moveItem (p.x, p.y) :: ((p :: l).zip (l ++ [e])).map itemOf

theorem feq_self {x : F32} (h : x.isNaN = false) : x.feq x = true := by
  cases x with
  | nan => simp [Flt.isNaN] at h
  | num s k hk => simp [Flt.feq]

theorem fixupOpen_items (c0 c1 : Point PD) (cs : Contour PD) (y e : Point PD) (p : Point PD)
    (hc0 : c0.x = p.x ∧ c0.y = p.y) (hc1 : c1.x = p.x ∧ c1.y = p.y) (hn : p.x.isNaN = false ∧ p.y.isNaN = false)
    (hlast : ∀ z ∈ (c1 :: cs).getLast?, z.ptype = .curve ∨ z.ptype = .line) :
    fixupOpen (c0 :: c1 :: cs) (itemOf (y, e)) = .ok ({ c0 with a := c1.a, b := c1.b } :: (cs ++ [openEnd e])) := by
  unfold fixupOpen
  obtain ⟨z, hz⟩ : ∃ z, (c1 :: cs).getLast? = some z := by
    cases h : (c1 :: cs).getLast? with
    | none => simp at h
    | some z => exact ⟨z, rfl⟩
  have hz' : (c0 :: c1 :: cs).getLast? = some z := by rw [List.getLast?_cons_cons]; exact hz
  have ht := hlast z hz
  rw [hz']
  have hfeq : c1.x.feq c0.x = true ∧ c1.y.feq c0.y = true := by
    rw [hc0.1, hc0.2, hc1.1, hc1.2]
    exact ⟨feq_self hn.1, feq_self hn.2⟩
  by_cases he : e.ptype = .curve
  · simp only [List.head?_cons, Out.unwrap, Out.bind_ok, ht, if_true, itemOf, he, openEnd, List.cons_append, hfeq.1, hfeq.2, Bool.and_self]
  · simp only [List.head?_cons, Out.unwrap, Out.bind_ok, ht, if_true, itemOf, he, openEnd, List.cons_append, hfeq.1, hfeq.2, Bool.and_self, if_false]

theorem zipLast (l : List (Point PD)) : ∀ (o q e : Point PD), ∃ z, ((q :: l).zip (l ++ [e])).getLastD (o, q) = (z, e) := by
  induction l with
  | nil => intro o q e; exact ⟨q, rfl⟩
  | cons a l ih =>
    intro o q e
    rw [List.cons_append, List.zip_cons_cons, List.getLastD_cons]
    exact ih q a e

theorem fromSk_ptype (p q : Point PD) : (fromSk p q).ptype = .curve ∨ (fromSk p q).ptype = .line := by
  unfold fromSk
  simp only
  split
  · exact Or.inl rfl
  · exact Or.inr rfl

theorem fromSkContour_open (p : Point PD) (l : List (Point PD)) (e : Point PD) (hn : p.x.isNaN = false ∧ p.y.isNaN = false) :
    fromSkContour (openItems p l e) = .ok (backOpen p l e) := by
  obtain ⟨y, hy⟩ : ∃ y, (((p :: l).zip (l ++ [e])).map itemOf).getLastD (moveItem (p.x, p.y)) = itemOf (y, e) := by
    obtain ⟨z, hz⟩ := zipLast l p p e
    refine ⟨z, ?_⟩
    have hne : (p :: l).zip (l ++ [e]) ≠ [] := by cases l <;> simp
    rw [← hz]
    generalize (p :: l).zip (l ++ [e]) = m at hne
    rw [List.getLastD_eq_getLast?, List.getLastD_eq_getLast?, List.getLast?_map]
    cases h : m.getLast? with
    | none => simp at h; exact absurd h hne
    | some w => rfl
  unfold openItems fromSkContour
  simp only [hy]
  rw [skPoints]
  have hne : (((p :: l).zip (l ++ [e])).map itemOf).isEmpty = false := by cases l <;> rfl
  rw [hne]
  have h0 : skPointAt (moveItem (p.x, p.y)) (itemOf (y, e)) ([] : Contour PD) 0 false (moveItem (p.x, p.y)) =
      .ok [{ x := p.x, y := p.y, ptype := .move }] := rfl
  rw [h0, Out.bind_ok]
  -- the first segment: as if the point before were a line
  have hp : ∃ p' : Point PD, p' = { p with ptype := .line } ∧ p'.x = p.x ∧ p'.y = p.y ∧ p'.ptype = .line ∧
      (∀ q, itemOf (p', q) = itemOf (p, q)) ∧ (∀ q, (fromSk p' q).a = (openStart p q).a) ∧ ∀ q, (fromSk p' q).b = .colocated :=
    ⟨_, rfl, rfl, rfl, rfl, fun q => rfl, fun q => rfl, fun q => rfl⟩
  obtain ⟨p', -, hx', hy', ht', hitem, ha, hb⟩ := hp
  have hstart : ∀ q : Point PD, ({ ({ x := p.x, y := p.y, ptype := .move } : Point PD) with a := (fromSk p' q).a, b := (fromSk p' q).b } : Point PD) = openStart p q := by
    intro q
    rw [ha, hb]
    rfl
  have hstart' : ∀ (d q : Point PD), ({ lastToMove d ({ x := p.x, y := p.y, ptype := .move } : Point PD) with a := (fromSk p' q).a, b := (fromSk p' q).b } : Point PD) = openStart p q := by
    intro d q
    rw [← hstart q]
    unfold lastToMove
    split <;> rfl
  have hl : ((p :: l).zip (l ++ [e])).map itemOf = ((p' :: l).zip (l ++ [e])).map itemOf := by
    cases l with
    | nil => simp [hitem]
    | cons q l => simp [hitem]
  have hswap : ∀ (c : Contour PD), skPoints (moveItem (p.x, p.y)) (moveItem (p.x, p.y)) c (0 + 1) (((p' :: l).zip (l ++ [e])).map itemOf) =
      skPoints (moveItem (p.x, p.y)) (itemOf (p, p')) c (0 + 1) (((p' :: l).zip (l ++ [e])).map itemOf) := by
    intro c
    cases l with
    | nil =>
      simp only [List.nil_append, List.zip_cons_cons, List.zip_nil_left, List.map_cons, List.map_nil, skPoints]
      rw [skPointAt_prev _ _ (itemOf (p, p')) (by simp [moveItem]) (by rw [itemOf_ptype, ht']; decide)]
    | cons q l =>
      simp only [List.cons_append, List.zip_cons_cons, List.map_cons, skPoints]
      rw [skPointAt_prev _ _ (itemOf (p, p')) (by simp [moveItem]) (by rw [itemOf_ptype, ht']; decide)]
  rw [hl, hswap, skPoints_open _ l p p' e _ [] (0 + 1) (by omega), Out.bind_ok, List.nil_append]
  have hmove : (lastToMove e ({ x := p.x, y := p.y, ptype := .move } : Point PD)).ptype = .move := by
    unfold lastToMove
    split <;> rfl
  have hxy : (lastToMove e ({ x := p.x, y := p.y, ptype := .move } : Point PD)).x = p.x ∧ (lastToMove e ({ x := p.x, y := p.y, ptype := .move } : Point PD)).y = p.y := by
    unfold lastToMove
    split <;> exact ⟨rfl, rfl⟩
  simp only [List.head?_cons, Option.any_some, hmove, decide_true, if_true]
  have hall : ∀ (l : List (Point PD)) (m : List (Point PD)), ∀ z ∈ List.zipWith fromSk l m, z.ptype = .curve ∨ z.ptype = .line := by
    intro l
    induction l with
    | nil => intro m z hz; simp at hz
    | cons a l ih =>
      intro m z hz
      cases m with
      | nil => simp at hz
      | cons b m =>
        rw [List.zipWith_cons_cons] at hz
        rcases List.mem_cons.1 hz with rfl | hz
        · exact fromSk_ptype a b
        · exact ih m z hz
  cases l with
  | nil =>
    simp only [List.nil_append, List.zipWith_cons_cons, List.zipWith_nil_left]
    rw [fixupOpen_items _ (fromSk p' e) [] y e p hxy ⟨hx', hy'⟩ hn, hstart' e e]
    · rfl
    · intro z hz
      cases hz
      exact fromSk_ptype p' e
  | cons q l =>
    simp only [List.cons_append, List.zipWith_cons_cons]
    rw [fixupOpen_items _ (fromSk p' q) _ y e p hxy ⟨hx', hy'⟩ hn, hstart' e q]
    · rfl
    · intro z hz
      refine hall (p' :: q :: l) (q :: (l ++ [e])) z ?_
      simp only [List.zipWith_cons_cons]
      exact List.mem_of_getLast? hz

/-- The path of an open contour. -/
theorem skPath_open (p : Point PD) (rest : Contour PD) (h : p.ptype = .move) :
    skPath p rest = .move (p.x, p.y) :: skSegments id id p rest := by
  unfold skPath skClosing
  rw [if_pos h, List.append_nil]
  rfl

theorem skIter_open (p : Point PD) (l : List (Point PD)) (e : Point PD) (hp : p.ptype = .move)
    (h : ∀ x ∈ l ++ [e], x.ptype = .line ∨ x.ptype = .curve) (last start : SkPoint) (tail : List SkEl) :
    skIter last start (skPath p (l ++ [e]) ++ tail) =
      .move (p.x, p.y) :: (((p :: l).zip (l ++ [e])).map verbOf ++ skIter (e.x, e.y) (p.x, p.y) tail) := by
  rw [skPath_open p _ hp, List.cons_append, skIter]
  have hne : (skSegments id id p (l ++ [e]) ++ tail).isEmpty = false := by
    have : ∀ q ∈ l ++ [e], skSegment id id p q ≠ [] := by
      intro q hq
      rcases h q hq with e | e <;> simp [skSegment, e]
    cases l with
    | nil =>
      have := this e (by simp)
      simp only [List.nil_append, skSegments]
      cases hs : skSegment id id p e with
      | nil => exact absurd hs this
      | cons a b => rfl
    | cons q l =>
      have := this q (by simp)
      simp only [List.cons_append, skSegments]
      cases hs : skSegment id id p q with
      | nil => exact absurd hs this
      | cons a b => rfl
  rw [hne]
  simp only [Bool.false_eq_true, if_false]
  rw [skIter_segments (l ++ [e]) p (p.x, p.y) tail h]
  have hl : (l ++ [e]).getLastD p = e := by simp
  rw [hl]
  have hz : ∀ (l : List (Point PD)) (p : Point PD), (p :: (l ++ [e])).zip (l ++ [e]) = (p :: l).zip (l ++ [e]) := by
    intro l
    induction l with
    | nil => intro p; rfl
    | cons a l ih =>
      intro p
      rw [List.cons_append, List.zip_cons_cons, List.zip_cons_cons, ih]
  rw [hz]

/-- The whole way to Skia and back, for the contours `p :: l ++ [e]` of a list. -/
theorem skia_back_open (conic : ConicToQuads) (l : List (Point PD × List (Point PD) × Point PD))
    (h : ∀ x ∈ l, x.1.ptype = .move ∧ (∀ y ∈ x.2.1 ++ [x.2.2], y.ptype = .line ∨ y.ptype = .curve) ∧ x.1.x.isNaN = false ∧ x.1.y.isNaN = false) :
    outlineFromSkia conic (l.map fun x => skPath x.1 (x.2.1 ++ [x.2.2])).flatten = .ok (l.map fun x => backOpen x.1 x.2.1 x.2.2) := by
  have hsplit : ∀ (last start : SkPoint) (o : List (List SkPt)) (c : List SkPt),
      skSplit o c (skIter last start (l.map fun x => skPath x.1 (x.2.1 ++ [x.2.2])).flatten) =
        .ok ((if c.isEmpty then o else o ++ [c]) ++ l.map fun x => openItems x.1 x.2.1 x.2.2) := by
    induction l with
    | nil => intro last start o c; simp [skIter, skSplit]
    | cons x l ih =>
      intro last start o c
      obtain ⟨h1, h2, -⟩ := h x (List.mem_cons_self ..)
      rw [List.map_cons, List.flatten_cons, skIter_open _ _ _ h1 h2, skSplit_some (p := moveItem (x.1.x, x.1.y)) rfl, if_pos (show (moveItem _).ptype = .move from rfl),
        skSplit_segments, List.singleton_append, ih fun y hy => h y (List.mem_cons_of_mem _ hy)]
      simp [openItems]
  have hconic : conicsToCubics conic (l.map fun x => openItems x.1 x.2.1 x.2.2) = .ok (l.map fun x => openItems x.1 x.2.1 x.2.2) := by
    unfold conicsToCubics
    have := Out.mapM'_ok (f := fun c => (Out.mapM' (conicToCubic conic) c >>= fun l => (Out.ok l.flatten : R (List SkPt))))
      (g := id) (l := l.map fun x => openItems x.1 x.2.1 x.2.2) (by
        intro a ha
        obtain ⟨x, -, rfl⟩ := List.mem_map.1 ha
        unfold openItems
        have h1 := conics_one conic ((x.1 :: x.2.1).zip (x.2.1 ++ [x.2.2]))
        rw [Out.mapM'_cons]
        have h2 : conicToCubic conic (moveItem (x.1.x, x.1.y)) = .ok [moveItem (x.1.x, x.1.y)] := rfl
        rw [h2, Out.bind_ok]
        revert h1
        cases Out.mapM' (conicToCubic conic) (((x.1 :: x.2.1).zip (x.2.1 ++ [x.2.2])).map itemOf) with
        | ok m =>
          intro h1
          have h3 : m.flatten = ((x.1 :: x.2.1).zip (x.2.1 ++ [x.2.2])).map itemOf := Out.ok.inj h1
          show Out.ok ([moveItem (x.1.x, x.1.y)] :: m).flatten = _
          rw [List.flatten_cons, h3]
          rfl
        | err e => intro h1; cases h1
        | panic => intro h1; cases h1)
    rw [List.map_id] at this
    exact this
  unfold outlineFromSkia splitSkiaPath
  rw [hsplit]
  simp only [List.isEmpty_nil, if_true, List.nil_append, Out.bind_ok]
  rw [hconic, Out.bind_ok]
  clear hsplit hconic
  induction l with
  | nil => rfl
  | cons x l ih =>
    obtain ⟨-, -, h3⟩ := h x (List.mem_cons_self ..)
    rw [List.map_cons, Out.mapM'_cons, fromSkContour_open _ _ _ h3, Out.bind_ok, ih fun y hy => h y (List.mem_cons_of_mem _ hy)]
    rfl

end GP
