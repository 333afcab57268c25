import Verif.Props.Read
/-!
# C86 and C87: the points of a contour are those the file says
-/
open Fl Fl.Text
namespace GP
open Spec
variable {PD D : Type}

/-! ## Points -/

theorem readPoint_says {e : Element} {g : GlifPoint} (h : readPoint e = .ok g) :
    AttrNumber e "x" g.x ∧ AttrNumber e "y" g.y ∧ TypeSays e g.ptype ∧ g.name = e.get "name" ∧
    (g.smooth = true ↔ e.get "smooth" = some "yes".toList ∧ ¬ IsOff e) := by
  obtain ⟨t1, t2, t3, t4, t5, t6⟩ := readPoint_type h
  have ht : TypeSays e g.ptype := by
    unfold TypeSays
    rcases t6 with t | t | t | t | t
    · exact Or.inl ⟨t1.1 t, t⟩
    · exact Or.inr (Or.inl ⟨t2.1 t, t⟩)
    · exact Or.inr (Or.inr (Or.inl ⟨t3.1 t, t⟩))
    · exact Or.inr (Or.inr (Or.inr (Or.inl ⟨t4.1 t, t⟩)))
    · exact Or.inr (Or.inr (Or.inr (Or.inr ⟨t5.1 t, t⟩)))
  refine ⟨?_, ?_, ht, ?_, ?_⟩
  all_goals
    have hp := readPoint_ok h
    unfold readPoint at h
    obtain ⟨x, hx, h⟩ := bind_eq_ok.1 h
    obtain ⟨y, hy, h⟩ := bind_eq_ok.1 h
    simp only [parse_isValid, if_true, Out.ok.injEq] at h
  · rw [← h]; exact (needIof_iff ..).1 hx
  · rw [← h]; exact (needIof_iff ..).1 hy
  · rw [← h]
  · rw [← t5]
    have hs : g.smooth = match e.get "smooth" with
        | some s => if s = "yes".toList then g.ptype != .offcurve else false
        | none => false := by
      rw [hp, ← h]
      rfl
    rw [hs]
    cases e.get "smooth" with
    | none => simp
    | some s =>
      simp only [Option.some.injEq]
      by_cases hy : s = "yes".toList
      · rw [if_pos hy]; simp [hy]
      · rw [if_neg hy]; simp only [hy, Bool.false_eq_true, false_and]

theorem says_ofGp {e : Element} {g : GlifPoint} (h : readPoint e = .ok g) : Plain (PD := PD) e (Point.ofGp g) := by
  obtain ⟨h1, h2, h3, h4, h5⟩ := readPoint_says h
  exact ⟨⟨⟨_, _, h1, h2, rfl, rfl⟩, h3, h4, rfl, h5⟩, rfl, rfl⟩

theorem forall₂_split {α β : Type} {rel : α → β → Prop} {l m : List α} {r : List β} (h : List.Forall₂ rel (l ++ m) r) :
    ∃ r1 r2, List.Forall₂ rel l r1 ∧ List.Forall₂ rel m r2 ∧ r = r1 ++ r2 := by
  induction l generalizing r with
  | nil => exact ⟨[], r, .nil, h, rfl⟩
  | cons a l ih =>
    rw [List.cons_append] at h
    cases h with
    | cons h t =>
      obtain ⟨r1, r2, h1, h2, rfl⟩ := ih t
      exact ⟨_ :: r1, r2, .cons h h1, h2, rfl⟩

/-- Segments of what was read. -/
abbrev GSegs := List (List GlifPoint × GlifPoint)

/-- Each point read is that of the file. -/
def SegsRead (segs : List (List Element × Element)) (gs : GSegs) : Prop :=
  List.Forall₂ (fun s t => List.Forall₂ (fun e g => readPoint e = .ok g) s.1 t.1 ∧ readPoint s.2 = .ok t.2) segs gs

theorem split_read {segs : List (List Element × Element)} {back : List Element} {l : List GlifPoint}
    (h : List.Forall₂ (fun e g => readPoint e = .ok g) (segs.flatMap (fun s => s.1 ++ [s.2]) ++ back) l) :
    ∃ (gs : GSegs) (gb : List GlifPoint), l = gs.flatMap (fun s => s.1 ++ [s.2]) ++ gb ∧ SegsRead segs gs ∧
      List.Forall₂ (fun e g => readPoint e = .ok g) back gb := by
  induction segs generalizing l with
  | nil => exact ⟨[], l, rfl, .nil, h⟩
  | cons s segs ih =>
    rw [List.flatMap_cons, List.append_assoc, List.append_assoc] at h
    obtain ⟨l1, l2, h1, h2, rfl⟩ := forall₂_split h
    rw [List.singleton_append, List.forall₂_cons_left_iff] at h2
    obtain ⟨g, l3, hg, h3, rfl⟩ := h2
    obtain ⟨gs, gb, rfl, hs, hb⟩ := ih h3
    exact ⟨(l1, g) :: gs, gb, by simp, .cons ⟨h1, hg⟩ hs, hb⟩

/-! ## Contours of curves -/

/-- A point with handles. -/
def withHandles (b : Option GlifPoint) (g : GlifPoint) (a : Option GlifPoint) : Point PD :=
  { x := g.x.toF32, y := g.y.toF32, a := Handle.ofGlifPoint a, b := Handle.ofGlifPoint b, smooth := g.smooth, name := g.name,
    ptype := g.ptype }

/-- The contour of some segments. -/
def curvesOf (b : Option GlifPoint) (g : GlifPoint) (gs : GSegs) (back : List GlifPoint) : Contour PD :=
  match gs with
  | [] => [withHandles b g back[0]?]
  | (offs, g') :: gs => withHandles b g offs[0]? :: curvesOf offs[1]? g' gs back

/-- A type on which the loop for curves does not stop. -/
def CubicType (t : PointType) : Prop := t = .move ∨ t = .line ∨ t = .curve

theorem foldR_offs' (l : List GlifPoint) (hl : ∀ g ∈ l, g.ptype = .offcurve) (c : Contour PD) (q : List GlifPoint) :
    foldR cubicStep (c, q) l = .ok (c, q ++ l) := by
  induction l generalizing q with
  | nil => simp [foldR]
  | cons g l ih =>
    have : cubicStep (c, q) g = .ok (c, q ++ [g]) := by
      unfold cubicStep
      rw [hl g List.mem_cons_self]
    rw [foldR, this, Out.bind_ok, ih (fun g hg => hl g (List.mem_cons_of_mem _ hg))]
    simp

theorem cubicStep_on (c : Contour PD) (q : List GlifPoint) (g : GlifPoint) (hg : CubicType g.ptype) :
    cubicStep (c, q) g = .ok (modLast (fun p : Point PD => { p with a := Handle.ofGlifPoint q[0]? }) c ++
      [withHandles q[1]? g q[0]?], q.drop 2) := by
  unfold cubicStep withHandles
  have h1 : q.head? = q[0]? := by cases q <;> rfl
  have h2 : q.tail.head? = q[1]? := by rcases q with _ | ⟨a, _ | ⟨b, q⟩⟩ <;> rfl
  have h3 : q.tail.tail = q.drop 2 := by rcases q with _ | ⟨a, _ | ⟨b, q⟩⟩ <;> rfl
  rcases hg with hg | hg | hg <;> rw [hg] <;> simp only [h1, h2, h3]

theorem foldR_curves (gs : GSegs) (back : List GlifPoint)
    (hs : ∀ s ∈ gs, (∀ o ∈ s.1, o.ptype = .offcurve) ∧ CubicType s.2.ptype)
    (hb : ∀ o ∈ back, o.ptype = .offcurve) :
    ∀ (q : List GlifPoint) (acc : Contour PD) (b : Option GlifPoint) (g : GlifPoint) (a : Option GlifPoint),
    ∃ c, foldR cubicStep (acc ++ [withHandles b g a], q) (gs.flatMap (fun s => s.1 ++ [s.2]) ++ back) = .ok (c, waiting q gs ++ back) ∧
      modLast (fun p : Point PD => { p with a := Handle.ofGlifPoint (waiting q gs ++ back)[0]? }) c =
        acc ++ curvesOf b g (handedOn q gs) (waiting q gs ++ back) := by
  induction gs with
  | nil =>
    intro q acc b g a
    refine ⟨acc ++ [withHandles b g a], ?_, ?_⟩
    · rw [List.flatMap_nil, List.nil_append, foldR_offs' back hb]; rfl
    · rw [modLast_append]; rfl
  | cons s gs ih =>
    intro q acc b g a
    obtain ⟨ho, ht⟩ := hs s List.mem_cons_self
    obtain ⟨offs, g'⟩ := s
    simp only at ho ht
    obtain ⟨c, h1, h2⟩ := ih (fun s h => hs s (List.mem_cons_of_mem _ h)) ((q ++ offs).drop 2) (acc ++ [withHandles b g (q ++ offs)[0]?])
      (q ++ offs)[1]? g' (q ++ offs)[0]?
    refine ⟨c, ?_, ?_⟩
    · rw [List.flatMap_cons, List.append_assoc, List.append_assoc, foldR_append, foldR_offs' offs ho, Out.bind_ok,
        List.singleton_append]
      unfold foldR
      rw [cubicStep_on _ _ _ ht, Out.bind_ok, modLast_append]
      exact h1
    · rw [waiting, h2, List.append_assoc]; rfl

/-- The contour made from the points of a file. -/
theorem cubicContour_eq (g : GlifPoint) (gs : GSegs) (back : List GlifPoint) (hg : CubicType g.ptype)
    (hs : ∀ s ∈ gs, (∀ o ∈ s.1, o.ptype = .offcurve) ∧ CubicType s.2.ptype)
    (hb : ∀ o ∈ back, o.ptype = .offcurve) (hl : g.ptype = .move → gs ≠ []) :
    cubicContour (PD := PD) (g :: gs.flatMap (fun s => s.1 ++ [s.2]) ++ back) =
      .ok (curvesOf (if g.ptype = .move then none else (waiting [] gs ++ back)[1]?) g (handedOn [] gs) (waiting [] gs ++ back)) := by
  obtain ⟨c, h1, h2⟩ := foldR_curves (PD := PD) gs back hs hb [] [] none g none
  unfold cubicContour
  rw [List.cons_append, foldR, cubicStep_on _ _ _ hg, Out.bind_ok]
  simp only [modLast, List.nil_append, List.getElem?_nil, List.drop_nil] at h1 h2 ⊢
  rw [h1, Out.bind_ok]
  generalize waiting [] gs ++ back = back at h2 ⊢
  have h3 : back.head? = back[0]? := by cases back <;> rfl
  have h4 : back.tail.head? = back[1]? := by rcases back with _ | ⟨a, _ | ⟨b, q⟩⟩ <;> rfl
  simp only [h3, h4, h2]
  cases gs with
  | nil =>
    simp only [handedOn, curvesOf]
    by_cases hm : g.ptype = .move
    · exact absurd rfl (hl hm)
    · simp [withHandles, hm]
  | cons s gs =>
    obtain ⟨offs, g'⟩ := s
    simp only [handedOn, curvesOf, List.nil_append]
    generalize handedOn (offs.drop 2) gs = gs
    have hne : ∀ b, curvesOf (PD := PD) b g' gs back ≠ [] := by intro b; cases gs <;> simp [curvesOf]
    by_cases hm : g.ptype = .move
    · simp only [withHandles, hm]
      cases hc : curvesOf (PD := PD) offs[1]? g' gs back with
      | nil => exact absurd hc (hne _)
      | cons p l => simp
    · simp only [withHandles]
      cases hc : curvesOf (PD := PD) offs[1]? g' gs back with
      | nil => exact absurd hc (hne _)
      | cons p l => simp [hm]

theorem forall₂_drop' {α β : Type} {rel : α → β → Prop} {l : List α} {m : List β} (h : List.Forall₂ rel l m) (n : Nat) :
    List.Forall₂ rel (l.drop n) (m.drop n) := List.forall₂_drop n h

theorem forall₂_app {α β : Type} {rel : α → β → Prop} {l l' : List α} {m m' : List β} (h : List.Forall₂ rel l m)
    (h' : List.Forall₂ rel l' m') : List.Forall₂ rel (l ++ l') (m ++ m') := List.rel_append h h'

/-- Handing on what was read. -/
theorem handedOn_read {segs : List (List Element × Element)} {gs : GSegs} (h : SegsRead segs gs) :
    ∀ {q : List Element} {q' : List GlifPoint}, List.Forall₂ (fun e g => readPoint e = .ok g) q q' →
      SegsRead (handedOn q segs) (handedOn q' gs) ∧
      List.Forall₂ (fun e g => readPoint e = .ok g) (waiting q segs) (waiting q' gs) := by
  induction h with
  | nil => intro q q' hq; exact ⟨.nil, hq⟩
  | @cons s t segs gs hst _ ih =>
    intro q q' hq
    obtain ⟨offs, e⟩ := s
    obtain ⟨offs', g⟩ := t
    have h1 := forall₂_app hq hst.1
    obtain ⟨h2, h3⟩ := ih (forall₂_drop' h1 2)
    exact ⟨.cons ⟨h1, hst.2⟩ h2, h3⟩

/-- Nothing waits if there are never more than two. -/
theorem handedOn_short {α : Type} {segs : List (List α × α)} (h : ∀ s ∈ segs, s.1.length ≤ 2) :
    handedOn [] segs = segs ∧ waiting [] segs = [] := by
  induction segs with
  | nil => exact ⟨rfl, rfl⟩
  | cons s segs ih =>
    obtain ⟨offs, e⟩ := s
    have : offs.drop 2 = [] := List.drop_eq_nil_iff.2 (h _ List.mem_cons_self)
    obtain ⟨h1, h2⟩ := ih fun s hs => h s (List.mem_cons_of_mem _ hs)
    exact ⟨by rw [handedOn, List.nil_append, this, h1], by rw [waiting, List.nil_append, this, h2]⟩

theorem says_handle {o : Option Element} {g : Option GlifPoint} (h : Option.Rel (fun e g => readPoint e = .ok g) o g) :
    HandleSays o (Handle.ofGlifPoint g) := by
  cases h with
  | none => rfl
  | some h =>
    obtain ⟨h1, h2, -⟩ := readPoint_says h
    exact ⟨_, _, rfl, _, _, h1, h2, rfl, rfl⟩

theorem rel_get {α β : Type} {rel : α → β → Prop} {l : List α} {m : List β} (h : List.Forall₂ rel l m) (i : Nat) :
    Option.Rel rel l[i]? m[i]? := by
  induction h generalizing i with
  | nil => simp only [List.getElem?_nil]; exact .none
  | cons h _ ih =>
    cases i with
    | zero => exact .some h
    | succ i => simpa using ih i

theorem says_curves {segs : List (List Element × Element)} {gs : GSegs} (hs : SegsRead segs gs) {back : List Element}
    {gb : List GlifPoint} (hb : List.Forall₂ (fun e g => readPoint e = .ok g) back gb) :
    ∀ {b : Option Element} {b' : Option GlifPoint} {e : Element} {g : GlifPoint},
      Option.Rel (fun e g => readPoint e = .ok g) b b' → readPoint e = .ok g → Curves (PD := PD) b e segs back (curvesOf b' g gs gb) := by
  have pt : ∀ {b' a' : Option GlifPoint} {e : Element} {g : GlifPoint}, readPoint e = .ok g →
      PointSays (PD := PD) e (withHandles b' g a') := by
    intro b' a' e g h
    obtain ⟨h1, h2, h3, h4, h5⟩ := readPoint_says h
    exact ⟨⟨_, _, h1, h2, rfl, rfl⟩, h3, h4, rfl, h5⟩
  induction hs with
  | nil =>
    intro b b' e g hbb hg
    exact .last _ _ _ _ (pt hg) (says_handle hbb) (says_handle (rel_get hb 0))
  | @cons s t segs gs hst _ ih =>
    intro b b' e g hbb hg
    exact .more _ _ _ _ _ _ _ _ (pt hg) (says_handle hbb) (says_handle (rel_get hst.1 0)) (ih (rel_get hst.1 1) hst.2)

/-! ## Quadratic contours -/

/-- The point between two. -/
def impliedOf (mid : IOF → IOF → IOF) (g h : GlifPoint) : Point PD :=
  { x := (mid g.x h.x).toF32, y := (mid g.y h.y).toF32, ptype := .qcurve, name := h.name }

/-- What comes before the last off-curve point. -/
def offsPre (mid : IOF → IOF → IOF) (g : GlifPoint) : List GlifPoint → Contour PD
  | [] => []
  | h :: l => Point.ofGp g :: impliedOf mid g h :: offsPre mid h l

/-- The last of some off-curve points. -/
def lastOff (g : GlifPoint) : List GlifPoint → GlifPoint
  | [] => g
  | h :: l => lastOff h l

/-- Off-curve points with the implied ones. -/
def offsOf (mid : IOF → IOF → IOF) : List GlifPoint → Contour PD
  | [] => []
  | g :: l => offsPre mid g l ++ [Point.ofGp (lastOff g l)]

theorem foldl_offs (mid : IOF → IOF → IOF) (l : List GlifPoint) (hl : ∀ g ∈ l, g.ptype = .offcurve) (c : Contour PD) (g : GlifPoint) :
    l.foldl (quadStep mid) (c, [g]) = (c ++ offsPre mid g l, [lastOff g l]) := by
  induction l generalizing c g with
  | nil => simp [offsPre, lastOff]
  | cons h l ih =>
    rw [List.foldl_cons]
    have : quadStep mid (c, [g]) h = (c ++ [Point.ofGp g, impliedOf mid g h], [h]) := by
      unfold quadStep
      rw [hl h List.mem_cons_self]
      rfl
    rw [this, ih fun g hg => hl g (List.mem_cons_of_mem _ hg)]
    simp [offsPre, lastOff]

theorem foldl_offs' (mid : IOF → IOF → IOF) (g : GlifPoint) (l : List GlifPoint) (hg : g.ptype = .offcurve)
    (hl : ∀ g ∈ l, g.ptype = .offcurve) (c : Contour PD) :
    (g :: l).foldl (quadStep mid) (c, []) = (c ++ offsPre mid g l, [lastOff g l]) := by
  rw [List.foldl_cons]
  have : quadStep mid (c, []) g = (c, [g]) := by
    unfold quadStep
    rw [hg]
    rfl
  rw [this, foldl_offs mid l hl]

theorem foldl_seg (mid : IOF → IOF → IOF) (offs : List GlifPoint) (g : GlifPoint) (ho : ∀ g ∈ offs, g.ptype = .offcurve)
    (hg : g.ptype ≠ .offcurve) (c : Contour PD) :
    (offs ++ [g]).foldl (quadStep mid) (c, []) = (c ++ (offsOf mid offs ++ [Point.ofGp g]), []) := by
  rw [List.foldl_append, List.foldl_cons, List.foldl_nil]
  cases offs with
  | nil =>
    unfold quadStep
    simp only [List.foldl_nil, ne_eq, hg, not_false_eq_true, if_true]
    rfl
  | cons o l =>
    rw [foldl_offs' mid o l (ho o List.mem_cons_self) fun g hg => ho g (List.mem_cons_of_mem _ hg)]
    unfold quadStep
    simp only [ne_eq, hg, not_false_eq_true, if_true, offsOf]
    simp

theorem foldl_segs (mid : IOF → IOF → IOF) (gs : GSegs)
    (hs : ∀ s ∈ gs, (∀ o ∈ s.1, o.ptype = .offcurve) ∧ s.2.ptype ≠ .offcurve) (c : Contour PD) :
    (gs.flatMap fun s => s.1 ++ [s.2]).foldl (quadStep mid) (c, []) =
      (c ++ gs.flatMap fun s => offsOf mid s.1 ++ [Point.ofGp s.2], []) := by
  induction gs generalizing c with
  | nil => simp
  | cons s gs ih =>
    obtain ⟨h1, h2⟩ := hs s List.mem_cons_self
    rw [List.flatMap_cons, List.foldl_append, foldl_seg mid _ _ h1 h2, ih fun s h => hs s (List.mem_cons_of_mem _ h)]
    simp

/-- What closes the contour. -/
def backOf (mid : IOF → IOF → IOF) (first : Point PD) : List GlifPoint → Contour PD
  | [] => []
  | g :: l => offsOf mid (g :: l) ++
    [{ x := (mid (lastOff g l).x (.float first.x)).toF32, y := (mid (lastOff g l).y (.float first.y)).toF32, ptype := .qclose }]

theorem quadraticContour_eq (mid : IOF → IOF → IOF) (g : GlifPoint) (gs : GSegs) (back : List GlifPoint) (hg : g.ptype ≠ .offcurve)
    (hs : ∀ s ∈ gs, (∀ o ∈ s.1, o.ptype = .offcurve) ∧ s.2.ptype ≠ .offcurve) (hb : ∀ o ∈ back, o.ptype = .offcurve) :
    quadraticContour (PD := PD) mid (g :: gs.flatMap (fun s => s.1 ++ [s.2]) ++ back) =
      Point.ofGp g :: gs.flatMap (fun s => offsOf mid s.1 ++ [Point.ofGp s.2]) ++ backOf mid (Point.ofGp g) back := by
  unfold quadraticContour
  have h0 : quadStep (PD := PD) mid ([], []) g = ([Point.ofGp g], []) := by
    unfold quadStep
    simp only [ne_eq, hg, not_false_eq_true, if_true]
    rfl
  rw [List.cons_append, List.foldl_cons, h0, List.foldl_append, foldl_segs mid gs hs]
  cases back with
  | nil => simp [backOf]
  | cons o l =>
    rw [foldl_offs' mid o l (hb o List.mem_cons_self) fun g hg => hb g (List.mem_cons_of_mem _ hg)]
    simp only [List.cons_append, backOf, offsOf]
    have : (Point.ofGp (PD := PD) g).ptype = g.ptype := rfl
    rw [this, if_neg hg]
    simp [IOF.ofF32]

theorem says_offs (mid : IOF → IOF → IOF) {es : List Element} {gs : List GlifPoint}
    (h : List.Forall₂ (fun e g => readPoint e = .ok g) es gs) : Offs (PD := PD) mid es (offsOf mid gs) := by
  cases h with
  | nil => exact .none
  | @cons e g es gs h0 h =>
    show Offs mid (e :: es) (offsPre mid g gs ++ [Point.ofGp (lastOff g gs)])
    induction h generalizing e g with
    | nil => exact .one _ _ (says_ofGp h0)
    | @cons e' g' es gs h1 _ ih =>
      refine .more _ _ _ _ _ _ (says_ofGp h0) ?_ (ih h1)
      obtain ⟨a1, a2, -⟩ := readPoint_says h0
      obtain ⟨b1, b2, -, b4, -⟩ := readPoint_says h1
      exact ⟨_, _, _, _, a1, a2, b1, b2, by rw [impliedOf, b4]⟩

theorem says_quads (mid : IOF → IOF → IOF) {segs : List (List Element × Element)} {gs : GSegs} (hs : SegsRead segs gs) :
    Quads (PD := PD) mid segs (gs.flatMap fun s => offsOf mid s.1 ++ [Point.ofGp s.2]) := by
  induction hs with
  | nil => exact .none
  | @cons s t segs gs hst _ ih =>
    rw [List.flatMap_cons, List.append_assoc]
    exact .more _ _ _ _ _ _ (says_offs mid hst.1) (says_ofGp hst.2) ih

theorem says_back (mid : IOF → IOF → IOF) (first : Point PD) {back : List Element} {gb : List GlifPoint}
    (hb : List.Forall₂ (fun e g => readPoint e = .ok g) back gb) : QuadBack mid first back (backOf mid first gb) := by
  cases gb with
  | nil => cases hb; exact Or.inl ⟨rfl, rfl⟩
  | cons g l =>
    right
    obtain ⟨o, ho, hol⟩ : ∃ o, back.getLast? = some o ∧ readPoint o = .ok (lastOff g l) := by
      clear first
      induction l generalizing back g with
      | nil =>
        cases hb with
        | cons h t => cases t; exact ⟨_, rfl, h⟩
      | cons g' l ih =>
        cases hb with
        | cons h t =>
          obtain ⟨o, h1, h2⟩ := ih _ t
          cases t
          exact ⟨o, by rw [List.getLast?_cons_cons]; exact h1, h2⟩
    obtain ⟨a1, a2, -⟩ := readPoint_says hol
    exact ⟨o, _, _, _, _, ho, says_offs mid hb, rfl, a1, a2, rfl⟩


/-! ## C86 and C87 -/

theorem segs_types {segs : List (List Element × Element)} {gs : GSegs} (h : SegsRead segs gs)
    (hs : ∀ s ∈ segs, (∀ o ∈ s.1, IsOff o) ∧ ¬ IsOff s.2) :
    ∀ t ∈ gs, (∀ o ∈ t.1, o.ptype = .offcurve) ∧ t.2.ptype ≠ .offcurve := by
  intro t ht
  obtain ⟨s, hm, h1, h2⟩ := forall₂_mem_right h ht
  obtain ⟨h3, h4⟩ := hs s hm
  refine ⟨?_, fun e => h4 ((readPoint_type h2).2.2.2.2.1.1 e)⟩
  intro o ho
  obtain ⟨e, he, hr⟩ := forall₂_mem_right h1 ho
  exact (readPoint_type hr).2.2.2.2.1.2 (h3 e he)

theorem offs_types {back : List Element} {gb : List GlifPoint} (h : List.Forall₂ (fun e g => readPoint e = .ok g) back gb)
    (hb : ∀ o ∈ back, IsOff o) : ∀ o ∈ gb, o.ptype = .offcurve := by
  intro o ho
  obtain ⟨e, he, hr⟩ := forall₂_mem_right h ho
  exact (readPoint_type hr).2.2.2.2.1.2 (hb e he)

/-- Every list of points that begins on the curve has segments. -/
theorem C86_segments (e : Element) (es : List Element) (he : ¬ IsOff e) :
    ∃ segs back, e :: es = filePoints e segs back ∧ Segmented e segs back := by
  suffices h : ∃ segs : List (List Element × Element), ∃ back, es = segs.flatMap (fun s => s.1 ++ [s.2]) ++ back ∧
      (∀ s ∈ segs, (∀ o ∈ s.1, IsOff o) ∧ ¬ IsOff s.2) ∧ ∀ o ∈ back, IsOff o by
    obtain ⟨segs, back, h1, h2, h3⟩ := h
    exact ⟨segs, back, by rw [h1]; rfl, he, h2, h3⟩
  induction es with
  | nil => exact ⟨[], [], rfl, by simp, by simp⟩
  | cons x es ih =>
    obtain ⟨segs, back, h1, h2, h3⟩ := ih
    by_cases hx : IsOff x
    · cases segs with
      | nil => exact ⟨[], x :: back, by rw [h1]; rfl, by simp, by
          intro o ho
          rcases List.mem_cons.1 ho with rfl | ho
          · exact hx
          · exact h3 o ho⟩
      | cons s segs =>
        refine ⟨(x :: s.1, s.2) :: segs, back, by rw [h1]; simp, ?_, h3⟩
        intro t ht
        rcases List.mem_cons.1 ht with rfl | ht
        · obtain ⟨a, b⟩ := h2 s List.mem_cons_self
          refine ⟨?_, b⟩
          intro o ho
          rcases List.mem_cons.1 ho with rfl | ho
          · exact hx
          · exact a o ho
        · exact h2 t (List.mem_cons_of_mem _ ht)
    · refine ⟨([], x) :: segs, back, by rw [h1]; simp, ?_, h3⟩
      intro t ht
      rcases List.mem_cons.1 ht with rfl | ht
      · exact ⟨by simp, hx⟩
      · exact h2 t ht

/-- The contour read from the points of a file. -/
theorem contour_says (mid : IOF → IOF → IOF) {el : Element} {gc : GlifContour} {c : Contour PD} (hgc : readContour el = .ok gc)
    (hc : contourOfGlif mid gc = .ok c) (hd : ¬ Dropped el) {e : Element} {segs : List (List Element × Element)} {back : List Element}
    (hf : named "point" el.children = filePoints e segs back) (hs : Segmented e segs back) :
    ((OfType e "move" ∨ OfType e "line" ∨ OfType e "curve") →
      ∃ b, (OfType e "move" → b = none) ∧ (¬ OfType e "move" → b = (waiting [] segs ++ back)[1]?) ∧
        Curves b e (handedOn [] segs) (waiting [] segs ++ back) c) ∧
    (OfType e "qcurve" → ∃ p d f, c = p :: d ++ f ∧ Plain e p ∧ Quads mid segs d ∧ QuadBack mid p back f) := by
  have hr := contour_read hgc
  rw [hf] at hr
  unfold filePoints at hr
  rw [List.cons_append, List.forall₂_cons_left_iff] at hr
  obtain ⟨g, l, hg, hl, rfl⟩ := hr
  obtain ⟨gs, gb, rfl, hsr, hbr⟩ := split_read hl
  obtain ⟨he, hs1, hs2⟩ := hs
  have ht := readPoint_type hg
  have st := segs_types hsr hs1
  have bt := offs_types hbr hs2
  have hon : g.ptype ≠ .offcurve := fun h => he (ht.2.2.2.2.1.1 h)
  constructor
  · intro hty
    have hct : CubicType g.ptype := by
      rcases hty with h | h | h
      · exact Or.inl (ht.1.2 h)
      · exact Or.inr (Or.inl (ht.2.1.2 h))
      · exact Or.inr (Or.inr (ht.2.2.1.2 h))
    have hcc : contourOfGlif (PD := PD) mid (g :: (gs.flatMap (fun s => s.1 ++ [s.2]) ++ gb)) =
        cubicContour (g :: gs.flatMap (fun s => s.1 ++ [s.2]) ++ gb) := by
      unfold contourOfGlif
      rcases hct with h | h | h <;> simp only [h] <;> rfl
    -- a quadratic point would have made the reader stop
    have hq : ∀ t ∈ gs, t.2.ptype ≠ .qcurve := by
      intro t htm hq
      have hfc := contour_read_file hgc (by simp)
      have hp := (C07_contour_panics_iff (PD := PD) mid g (gs.flatMap (fun s => s.1 ++ [s.2]) ++ gb) hfc).2 ⟨by
        rcases hct with h | h | h <;> simp [h], t.2, by
        refine List.mem_append_left _ (List.mem_flatMap.2 ⟨t, htm, by simp⟩), hq⟩
      rw [hc] at hp
      cases hp
    have hgs : ∀ s ∈ gs, (∀ o ∈ s.1, o.ptype = .offcurve) ∧ CubicType s.2.ptype := by
      intro t htm
      obtain ⟨s, hsm, h1, h2⟩ := forall₂_mem_right hsr htm
      refine ⟨(st t htm).1, ?_⟩
      have hw := (readPoint_type h2).2.2.2.2.2
      have h3 := (st t htm).2
      have h4 := hq t htm
      rcases hw with h | h | h | h | h
      · exact Or.inl h
      · exact Or.inr (Or.inl h)
      · exact Or.inr (Or.inr h)
      · exact absurd h h4
      · exact absurd h h3
    have hlm : g.ptype = .move → gs ≠ [] := by
      rintro hm rfl
      cases hsr
      apply hd
      unfold Dropped
      rw [hf]
      exact Or.inr ⟨ht.1.1 hm, by simpa using hs2⟩
    rw [hcc, cubicContour_eq g gs gb hct hgs bt hlm, Out.ok.injEq] at hc
    rw [← hc]
    obtain ⟨hsr', hw⟩ := handedOn_read hsr .nil
    have hbr' := forall₂_app hw hbr
    by_cases hm : OfType e "move"
    · refine ⟨none, fun _ => rfl, fun h => absurd hm h, ?_⟩
      rw [if_pos (ht.1.2 hm)]
      exact says_curves hsr' hbr' .none hg
    · refine ⟨_, fun h => absurd h hm, fun _ => rfl, ?_⟩
      rw [if_neg (fun h => hm (ht.1.1 h))]
      exact says_curves hsr' hbr' (rel_get hbr' 1) hg
  · intro hq
    have hcc : contourOfGlif (PD := PD) mid (g :: (gs.flatMap (fun s => s.1 ++ [s.2]) ++ gb)) =
        .ok (quadraticContour mid (g :: gs.flatMap (fun s => s.1 ++ [s.2]) ++ gb)) := by
      unfold contourOfGlif
      simp only [ht.2.2.2.1.2 hq]
      rfl
    rw [hcc, quadraticContour_eq mid g gs gb hon st bt, Out.ok.injEq] at hc
    exact ⟨Point.ofGp g, _, _, hc.symm, says_ofGp hg, says_quads mid hsr, says_back mid _ hbr⟩

open Classical in
/-- What is true of C86: in a contour of a file that is not quadratic the points read are the on-curve points in
order.  The outgoing handle of each is the first of the off-curve points that wait behind it, and the incoming handle of
the next one is the second; further ones wait for the segments after that.  The first point of an open contour has
no incoming handle. -/
theorem C86_exact (mid : IOF → IOF → IOF) (pio : PlistIO D) (ped : Pedantry) (root : Element) (g : Glif PD D)
    (h : readGlif mid pio ped root = .ok g) :
    List.Forall₂ (fun el c => ∀ e segs back, named "point" el.children = filePoints e segs back → Segmented e segs back →
        (OfType e "move" ∨ OfType e "line" ∨ OfType e "curve") →
        ∃ b, (OfType e "move" → b = none) ∧ (¬ OfType e "move" → b = (waiting [] segs ++ back)[1]?) ∧
          Curves b e (handedOn [] segs) (waiting [] segs ++ back) c)
      ((contoursOf root).filter fun e => ¬ Dropped e) (g.outline.getD []) := by
  have hm := C08_file mid pio ped root g h
  rw [List.forall₂_iff_get] at hm ⊢
  refine ⟨hm.1, fun i h1 h2 => ?_⟩
  obtain ⟨_, gc, hgc, hc⟩ := hm.2 i h1 h2
  have hd : ¬ Dropped (((contoursOf root).filter fun e => ¬ Dropped e).get ⟨i, h1⟩) := by
    have := List.get_mem ((contoursOf root).filter fun e => ¬ Dropped e) ⟨i, h1⟩
    simpa using (List.mem_filter.1 this).2
  intro e segs back hf hs
  exact (contour_says mid hgc hc hd hf hs).1

open Classical in
/-- What is true of C86: in a contour of a file that is not quadratic and has no more than two off-curve
points before any on-curve point, the points read are the on-curve points in order, the outgoing handle of
each is the first off-curve point behind it and its incoming handle is the second one before it; the
first point of an open contour has no incoming handle. -/
theorem C86_partial (mid : IOF → IOF → IOF) (pio : PlistIO D) (ped : Pedantry) (root : Element) (g : Glif PD D)
    (h : readGlif mid pio ped root = .ok g) :
    List.Forall₂ (fun el c => ∀ e segs back, named "point" el.children = filePoints e segs back → Segmented e segs back →
        (OfType e "move" ∨ OfType e "line" ∨ OfType e "curve") → (∀ s ∈ segs, s.1.length ≤ 2) →
        ∃ b, (OfType e "move" → b = none) ∧ (¬ OfType e "move" → b = back[1]?) ∧ Curves b e segs back c)
      ((contoursOf root).filter fun e => ¬ Dropped e) (g.outline.getD []) := by
  refine (C86_exact mid pio ped root g h).imp fun el c hc => ?_
  intro e segs back hf hs ht hl
  obtain ⟨b, h1, h2, h3⟩ := hc e segs back hf hs ht
  obtain ⟨e1, e2⟩ := handedOn_short hl
  rw [e2, List.nil_append] at h2 h3
  rw [e1] at h3
  exact ⟨b, h1, h2, h3⟩

open Classical in
/-- **C87.** A quadratic contour of a file: the points read are those of the file in order, with the
implied points between off-curve points in a row, and, if the file ends off the curve, a point between the
last off-curve point and the beginning; no point has a handle. -/
theorem C87_quadratic (mid : IOF → IOF → IOF) (pio : PlistIO D) (ped : Pedantry) (root : Element) (g : Glif PD D)
    (h : readGlif mid pio ped root = .ok g) :
    List.Forall₂ (fun el c => ∀ e segs back, named "point" el.children = filePoints e segs back → Segmented e segs back →
        OfType e "qcurve" → ∃ p d f, c = p :: d ++ f ∧ Plain e p ∧ Quads mid segs d ∧ QuadBack mid p back f)
      ((contoursOf root).filter fun e => ¬ Dropped e) (g.outline.getD []) := by
  have hm := C08_file mid pio ped root g h
  rw [List.forall₂_iff_get] at hm ⊢
  refine ⟨hm.1, fun i h1 h2 => ?_⟩
  obtain ⟨_, gc, hgc, hc⟩ := hm.2 i h1 h2
  have hd : ¬ Dropped (((contoursOf root).filter fun e => ¬ Dropped e).get ⟨i, h1⟩) := by
    have := List.get_mem ((contoursOf root).filter fun e => ¬ Dropped e) ⟨i, h1⟩
    simpa using (List.mem_filter.1 this).2
  intro e segs back hf hs
  exact (contour_says mid hgc hc hd hf hs).2


/-- **C86 is false of the code** with three off-curve points before a curve point: here the third becomes
a handle of the line that follows. -/
theorem C86_false (mid : IOF → IOF → IOF) (pio : PlistIO D) :
    ∃ root, ∃ g : Glif PD D, readGlif mid pio {} root = .ok g ∧
      ∃ el c e segs, contoursOf root = [el] ∧ g.outline = some [c] ∧ named "point" el.children = filePoints e segs [] ∧
        Segmented e segs [] ∧ OfType e "move" ∧ ¬ Curves none e segs [] c := by
  have n0 : IOF.parse "0".toList = some (.int 0) := by decide +kernel
  have hn : IsNumber "0".toList := (C79_accepted _).1 ⟨_, n0⟩
  let el (t : String) : Element := ⟨"point", [("x", "0".toList), ("y", "0".toList), ("type", t.toList)], []⟩
  let off : Element := ⟨"point", [("x", "0".toList), ("y", "0".toList)], []⟩
  let ps := [Sample.pe "move" "0" "0", Sample.offe "0" "0", Sample.offe "0" "0", Sample.offe "0" "0", Sample.pe "curve" "0" "0",
    Sample.pe "line" "0" "0"]
  have hps : named "point" ps = [el "move", off, off, off, el "curve", el "line"] := rfl
  have ha : Acceptable {} (Sample.doc ps) := by
    apply doc_acceptable
    intro p hp
    rw [hps] at hp
    simp only [List.mem_cons, List.not_mem_nil, or_false] at hp
    rcases hp with rfl | rfl | rfl | rfl | rfl | rfl <;> exact ⟨⟨_, rfl, hn⟩, ⟨_, rfl, hn⟩⟩
  have hco : contoursOf (Sample.doc ps) = [⟨"contour", [], ps⟩] := rfl
  obtain ⟨g, hg⟩ := (read_iff (PD := PD) mid pio {} (Sample.doc ps)).2 ⟨ha, by
    rintro ⟨c, hc, hq⟩
    rw [hco, List.mem_singleton] at hc
    subst hc
    obtain ⟨p, ps', e, _, q, hq, ht⟩ := hq
    simp only [hps] at e
    cases e
    simp only [List.mem_cons, List.not_mem_nil, or_false] at hq
    rcases hq with rfl | rfl | rfl | rfl | rfl <;> revert ht <;> unfold OfType <;> decide⟩
  have offT : IsOff off := by intro t ht; cases ht
  have onT : ∀ t ∈ ["move", "line", "curve"], ¬ IsOff (el t) := by
    intro t ht h
    refine h t.toList rfl ?_
    simp only [List.mem_cons, List.not_mem_nil, or_false] at ht
    rcases ht with rfl | rfl | rfl <;> decide
  have hnd : ¬ Dropped ⟨"contour", [], ps⟩ := by
    unfold Dropped
    simp only [hps]
    rintro (h | ⟨-, h⟩)
    · exact onT "move" (by simp) h
    · exact onT "line" (by simp) (h (el "line") (by simp))
  have hm := C08_file mid pio {} _ g hg
  rw [hco, List.filter_cons_of_pos (by simpa using hnd), List.filter_nil, List.forall₂_cons_left_iff] at hm
  obtain ⟨c, l, ⟨-, gc, hgc, hc⟩, hl, ho⟩ := hm
  cases hl
  have ho' : g.outline = some [c] := by
    cases hgo : g.outline with
    | none => rw [hgo] at ho; cases ho
    | some o => rw [hgo] at ho; exact congrArg some ho
  refine ⟨_, g, hg, _, c, el "move", [([off, off, off], el "curve"), ([], el "line")], hco, ho', hps, ?_, rfl, ?_⟩
  · refine ⟨onT _ (by simp), ?_, by simp⟩
    intro s hs
    simp only [List.mem_cons, List.not_mem_nil, or_false] at hs
    rcases hs with rfl | rfl
    · refine ⟨?_, onT _ (by simp)⟩
      intro o ho
      simp only [List.mem_cons, List.not_mem_nil, or_false, or_self] at ho
      rw [ho]; exact offT
    · exact ⟨by simp, onT _ (by simp)⟩
  · have hr := contour_read hgc
    rw [show named "point" (Element.mk "contour" [] ps).children = _ from hps] at hr
    simp only [List.forall₂_cons_left_iff, List.forall₂_nil_left_iff] at hr
    obtain ⟨g0, _, h0, ⟨g1, _, h1, ⟨g2, _, h2, ⟨g3, _, h3, ⟨g4, _, h4, ⟨g5, _, h5, rfl, rfl⟩, rfl⟩, rfl⟩, rfl⟩, rfl⟩, rfl⟩ := hr
    have t0 := (readPoint_type h0).1.2 rfl
    have t1 := (readPoint_type h1).2.2.2.2.1.2 offT
    have t2 := (readPoint_type h2).2.2.2.2.1.2 offT
    have t3 := (readPoint_type h3).2.2.2.2.1.2 offT
    have t4 := (readPoint_type h4).2.2.1.2 rfl
    have t5 := (readPoint_type h5).2.1.2 rfl
    clear h0 h1 h2 h3 h4 h5 hgc hg ho ha
    have s0 := cubicStep_on (PD := PD) [] [] g0 (Or.inl t0)
    have s1 := foldR_offs' [g1, g2, g3] (by simp [t1, t2, t3]) [withHandles (PD := PD) none g0 none] []
    have s4 := cubicStep_on [withHandles (PD := PD) none g0 none] [g1, g2, g3] g4 (Or.inr (Or.inr t4))
    have s5 := cubicStep_on [withHandles (PD := PD) none g0 (some g1), withHandles (some g2) g4 (some g1)] [g3] g5 (Or.inr (Or.inl t5))
    have hf : foldR (cubicStep (PD := PD)) ([], []) ([g0] ++ [g1, g2, g3] ++ [g4, g5]) =
        .ok ([withHandles none g0 (some g1), withHandles (some g2) g4 (some g3), withHandles none g5 (some g3)], []) := by
      rw [foldR_append, foldR_append, foldR, s0, Out.bind_ok, foldR, Out.bind_ok]
      refine (congrArg (fun o => Out.bind o _) s1).trans ?_
      show Out.bind (cubicStep ([withHandles none g0 none], [g1, g2, g3]) g4) _ = _
      rw [s4]
      show Out.bind (cubicStep ([withHandles none g0 (some g1), withHandles (some g2) g4 (some g1)], [g3]) g5) _ = _
      rw [s5]
      rfl
    have hcc : cubicContour (PD := PD) [g0, g1, g2, g3, g4, g5] =
        .ok [withHandles none g0 (some g1), withHandles (some g2) g4 (some g3), withHandles none g5 none] := by
      unfold cubicContour
      refine (congrArg (fun o => Out.bind o _) hf).trans ?_
      have : (withHandles (PD := PD) none g0 (some g1)).ptype = .move := t0
      simp only [Out.bind, modLast, this]
      rfl
    unfold contourOfGlif at hc
    simp only [t0] at hc
    have hc' := Out.ok.inj (hcc.symm.trans hc)
    intro hcv
    rw [← hc'] at hcv
    cases hcv with
    | more _ _ _ _ _ _ _ _ _ _ _ hcv =>
      cases hcv with
      | more _ _ _ _ _ _ _ _ _ _ ha _ => cases ha

/-- A closed contour whose first curve gets its off-curve points from the end of the file. -/
example (mid : IOF → IOF → IOF) (pio : PlistIO D) :
    let el (t : String) : Element := ⟨"point", [("x", "0".toList), ("y", "0".toList), ("type", t.toList)], []⟩
    let off : Element := ⟨"point", [("x", "0".toList), ("y", "0".toList)], []⟩
    let ps := [Sample.pe "curve" "0" "0", Sample.pe "line" "0" "0", Sample.offe "0" "0", Sample.offe "0" "0"]
    (∃ g : Glif PD D, readGlif mid pio {} (Sample.doc ps) = .ok g) ∧
      named "point" ps = filePoints (el "curve") [([], el "line")] [off, off] ∧
      Segmented (el "curve") [([], el "line")] [off, off] := by
  intro el off ps
  have n0 : IOF.parse "0".toList = some (.int 0) := by decide +kernel
  have hn : IsNumber "0".toList := (C79_accepted _).1 ⟨_, n0⟩
  have hps : named "point" ps = [el "curve", el "line", off, off] := rfl
  have offT : IsOff off := by intro t ht; cases ht
  have onT : ∀ t ∈ ["move", "line", "curve"], ¬ IsOff (el t) := by
    intro t ht h
    refine h t.toList rfl ?_
    simp only [List.mem_cons, List.not_mem_nil, or_false] at ht
    rcases ht with rfl | rfl | rfl <;> decide
  refine ⟨?_, hps, onT _ (by simp), ?_, ?_⟩
  · refine (read_iff (PD := PD) mid pio {} (Sample.doc ps)).2 ⟨?_, ?_⟩
    · apply doc_acceptable
      intro p hp
      rw [hps] at hp
      simp only [List.mem_cons, List.not_mem_nil, or_false] at hp
      rcases hp with rfl | rfl | rfl | rfl <;> exact ⟨⟨_, rfl, hn⟩, ⟨_, rfl, hn⟩⟩
    · rintro ⟨c, hc, hq⟩
      rw [show contoursOf (Sample.doc ps) = [⟨"contour", [], ps⟩] from rfl, List.mem_singleton] at hc
      subst hc
      obtain ⟨p, ps', e, _, q, hq, ht⟩ := hq
      simp only [hps] at e
      cases e
      simp only [List.mem_cons, List.not_mem_nil, or_false] at hq
      rcases hq with rfl | rfl | rfl <;> revert ht <;> unfold OfType <;> decide
  · intro s hs
    rw [List.mem_singleton] at hs
    subst hs
    exact ⟨by simp, onT _ (by simp)⟩
  · intro o ho
    simp only [List.mem_cons, List.not_mem_nil, or_false, or_self] at ho
    rw [ho]; exact offT

/-- A quadratic contour with two off-curve points in a row and one at the end. -/
example :
    let mid : IOF → IOF → IOF := fun a _ => a
    let pio : PlistIO Unit := ⟨fun _ => none, fun _ => none⟩
    let on : Element := ⟨"point", [("x", "0".toList), ("y", "1".toList), ("type", "qcurve".toList)], []⟩
    let off : Element := ⟨"point", [("x", "4".toList), ("y", "2".toList)], []⟩
    let ps := [Sample.pe "qcurve" "0" "1", Sample.offe "4" "2", Sample.offe "4" "2", Sample.pe "qcurve" "0" "1", Sample.offe "4" "2"]
    (∃ g : Glif Unit Unit, readGlif mid pio {} (Sample.doc ps) = .ok g ∧ (g.outline.getD []).map List.length = [7]) ∧
      named "point" ps = filePoints on [([off, off], on)] [off] ∧ Segmented on [([off, off], on)] [off] ∧ OfType on "qcurve" := by
  intro mid pio on off ps
  have offT : IsOff off := by intro t ht; cases ht
  have onT : ¬ IsOff on := fun h => h "qcurve".toList rfl (by decide)
  refine ⟨?_, rfl, ⟨onT, ?_, ?_⟩, rfl⟩
  · have hok : (match readGlif (PD := Unit) mid pio {} (Sample.doc ps) with
        | .ok g => some ((g.outline.getD []).map List.length) | _ => none) = some [7] := by decide +kernel
    match hr : readGlif (PD := Unit) mid pio {} (Sample.doc ps) with
    | .ok g => rw [hr] at hok; exact ⟨g, rfl, Option.some.inj hok⟩
    | .err _ => rw [hr] at hok; cases hok
    | .panic => rw [hr] at hok; cases hok
  · intro s hs
    rw [List.mem_singleton] at hs
    subst hs
    refine ⟨?_, onT⟩
    intro o ho
    simp only [List.mem_cons, List.not_mem_nil, or_false, or_self] at ho
    rw [ho]; exact offT
  · intro o ho
    rw [List.mem_singleton] at ho
    rw [ho]; exact offT

end GP
