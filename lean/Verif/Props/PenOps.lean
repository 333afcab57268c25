import Verif.Lemmas.PenOps
import Verif.Props.Refigure
import Mathlib.Data.List.Forall2
/-!
# Kurbo paths (C34 to C37)
-/
open Fl
namespace GP
variable {PD : Type}
open Spec

/-! ## C35 -/

theorem closed_of (p q : Point PD) (rest : Contour PD) (hp : p.ptype ≠ .move) : isClosed (p :: q :: rest) = true := by
  simp [isClosed, isOpen, hp]

theorem refigure_pos (c : Contour PD) : (refigure c).map pos64 = c.map pos64 := by
  have h := C30_unchanged c
  have := congrArg (List.map fun t : F32 × F32 × Option Str × Bool × Option PD => (t.1.to64, t.2.1.to64)) h
  simp only [List.map_map] at this
  exact this

/-- The path of a closed contour, with the refigured contour in view. -/
theorem kurbo_closed {c : Contour PD} (hc : isClosed c = true) : ∃ p q rest, refigure c = p :: q :: rest ∧
    Figured (p :: q :: rest) ∧
    contourIntoKurbo c = .ok (.moveTo (pos64 p) :: (midOps p q rest).map PenOp.pathEl ++ [.closePath]) := by
  obtain ⟨p, q, rest, hr, hf⟩ := refigure_closed hc
  refine ⟨p, q, rest, hr, hf, ?_⟩
  unfold contourIntoKurbo
  rw [intoPenOperations_closed hc hr hf, Out.bind_ok]
  simp only [List.map_append, List.map_cons, List.map_nil]
  rfl

theorem opOf_lineOrCurve (x : Point PD × Point PD) : LineOrCurve (opOf x).pathEl := by
  unfold opOf
  split
  · exact Or.inl ⟨_, rfl⟩
  · exact Or.inr ⟨_, _, _, rfl⟩

/-- **C35.** A closed contour is always converted, to one `MoveTo` to its first point, then lines and cubic
curves, then one `ClosePath`. -/
theorem C35_well_formed (p q : Point PD) (rest : Contour PD) (hp : p.ptype ≠ .move) :
    ∃ els, contourIntoKurbo (p :: q :: rest) = .ok els ∧ ClosedPath (pos64 p) els := by
  obtain ⟨p', q', rest', hr, -, hk⟩ := kurbo_closed (closed_of p q rest hp)
  have hpos : pos64 p' = pos64 p := by
    have h := refigure_pos (p :: q :: rest)
    rw [hr] at h
    simp only [List.map_cons, List.cons.injEq] at h
    exact h.1
  refine ⟨_, hk, _, by rw [hpos], ?_⟩
  intro e he
  obtain ⟨o, ho, rfl⟩ := List.mem_map.1 he
  unfold midOps at ho
  rcases List.mem_append.1 ho with ho | ho
  · split at ho
    · cases ho
    · rw [List.mem_singleton] at ho
      subst ho
      exact opOf_lineOrCurve _
  · obtain ⟨x, -, rfl⟩ := List.mem_map.1 ho
    exact opOf_lineOrCurve _

/-- The number of elements: one for each point, `MoveTo` and `ClosePath`, or one less. -/
theorem C35_length (p q : Point PD) (rest : Contour PD) (hp : p.ptype ≠ .move) :
    ∃ els, contourIntoKurbo (p :: q :: rest) = .ok els ∧
      (els.length = (p :: q :: rest).length + 2 ∨ els.length = (p :: q :: rest).length + 1) := by
  obtain ⟨p', q', rest', hr, -, hk⟩ := kurbo_closed (closed_of p q rest hp)
  have hlen : (p' :: q' :: rest').length = (p :: q :: rest).length := by
    have h := congrArg List.length (refigure_pos (p :: q :: rest))
    rw [hr] at h
    simpa using h
  refine ⟨_, hk, ?_⟩
  unfold midOps
  simp only [List.length_cons, List.length_append, List.length_map, List.length_zip, List.length_nil] at hlen ⊢
  split
  · simp only [List.length_nil]; omega
  · simp only [List.length_cons, List.length_nil]; omega

/-- The whole path of an outline is that of its contours one after the other. -/
theorem C35_outline (o : Outline PD) (h : ∀ c ∈ o, ∃ p q rest, c = p :: q :: rest ∧ p.ptype ≠ .move) :
    ∃ els : List (List PathEl), outlineIntoKurbo o = .ok els.flatten ∧
      List.Forall₂ (fun c e => contourIntoKurbo c = .ok e) o els := by
  induction o with
  | nil => exact ⟨[], rfl, .nil⟩
  | cons c o ih =>
    obtain ⟨els, h1, h2⟩ := ih fun d hd => h d (List.mem_cons_of_mem _ hd)
    obtain ⟨p, q, rest, rfl, hp⟩ := h c (List.mem_cons_self ..)
    obtain ⟨e, he, -⟩ := C35_well_formed p q rest hp
    refine ⟨e :: els, ?_, .cons he h2⟩
    rw [outlineIntoKurbo, he]
    simp only [h1, Out.bind_ok, List.flatten_cons]

/-! ## C36 -/

theorem target_opOf (x : Point PD × Point PD) :
    target (opOf x).pathEl = some (if x.1.ptype = .line then pos64 x.1 else pos64 x.2) := by
  unfold opOf
  split <;> rfl

/-- Where the operations for points `l`, followed by `e`, take the pen. -/
theorem targets_zip (l : List (Point PD)) (e : Point PD) : ∀ x, (∀ y ∈ openPairs (x :: l), y.1.ptype = .line → y.2.ptype = .line) →
    (x.ptype = .line → ((x :: l).map pos64).Sublist
      ((((x :: l).zip (l ++ [e])).map opOf).map PenOp.pathEl |>.filterMap target)) ∧
    (x.ptype ≠ .line → (l.map pos64).Sublist
      ((((x :: l).zip (l ++ [e])).map opOf).map PenOp.pathEl |>.filterMap target)) := by
  induction l with
  | nil =>
    intro x _
    simp only [List.nil_append, List.zip_cons_cons, List.zip_nil_left, List.map_cons, List.map_nil, List.filterMap_cons,
      target_opOf, List.filterMap_nil]
    constructor
    · intro h; simp [h]
    · intro _; exact List.nil_sublist _
  | cons y l ih =>
    intro x hx
    have hy : ∀ z ∈ openPairs (y :: l), z.1.ptype = .line → z.2.ptype = .line := by
      intro z hz
      exact hx z (List.mem_cons_of_mem _ hz)
    obtain ⟨i1, i2⟩ := ih y hy
    simp only [List.cons_append, List.zip_cons_cons, List.map_cons, List.filterMap_cons, target_opOf] at i1 i2 ⊢
    constructor
    · intro hl
      have hyl : y.ptype = .line := hx (x, y) (List.mem_cons_self ..) hl
      rw [if_pos hl]
      exact (i1 hyl).cons_cons _
    · intro hl
      rw [if_neg hl]
      by_cases hyl : y.ptype = .line
      · exact (i1 hyl).cons _
      · exact (i2 hyl).cons_cons _

/-- **C36**, for closed contours in which (after refiguring, which is part of the conversion) no curve point
directly follows a line point, the first point aside; for instance all curves, or all lines.  Missing:
other closed contours, for which it is false (`C36_false`), and open ones (`C36_false_open`). -/
theorem C36_partial (p q : Point PD) (rest : Contour PD) (hp : p.ptype ≠ .move)
    (h : ∀ x ∈ openPairs (refigure (p :: q :: rest)), x.1.ptype = .line → x.2.ptype = .line) :
    ∃ els, contourIntoKurbo (p :: q :: rest) = .ok els ∧ Visits (p :: q :: rest) els := by
  obtain ⟨p', q', rest', hr, hf, hk⟩ := kurbo_closed (closed_of p q rest hp)
  refine ⟨_, hk, ?_⟩
  unfold Visits
  rw [← refigure_pos, hr]
  rw [hr] at h
  obtain ⟨i1, i2⟩ := targets_zip (q' :: rest') p' p' h
  obtain ⟨j1, j2⟩ := targets_zip rest' p' q' fun x hx => h x (List.mem_cons_of_mem _ hx)
  simp only [List.cons_append, List.filterMap_cons, List.filterMap_append, List.map_cons, target]
  refine List.Sublist.cons_cons _ (List.Sublist.trans ?_ (List.sublist_append_left _ _))
  unfold midOps
  by_cases hq : q'.ptype = .line
  · rw [if_pos hq, List.nil_append]
    exact j1 hq
  · have hpl : p'.ptype ≠ .line := fun e => hq (h (p', q') (List.mem_cons_self ..) e)
    rw [if_neg hq]
    simp only [List.cons_append, List.zip_cons_cons, List.map_cons, List.nil_append] at i2 ⊢
    exact i2 hpl

/-- An open contour of one curve is visited, too. -/
theorem C36_partial_open (p q : Point PD) (hp : p.ptype = .move)
    (hc : settle p.a p ≠ .colocated ∨ settle q.b q ≠ .colocated) :
    ∃ els, contourIntoKurbo [p, q] = .ok els ∧ Visits [p, q] els := by
  have hr : refigure [p, q] = [{ settled p with ptype := .move }, { settled q with ptype := .curve }] := by
    rw [refigure_eq]
    simp only [refigured, hp, if_true, List.zipWith_cons_cons, List.zipWith_nil_right, retyped]
    have : typeByHandles (settled p).a (settled q).b = .curve := by
      unfold typeByHandles
      rw [if_neg]
      rintro ⟨h1, h2⟩
      exact hc.elim (fun h => h h1) (fun h => h h2)
    rw [this]
  refine ⟨[.moveTo (pos64 p), .curveTo (GlifPoint.fromHandle (settled p) .A).kpoint (GlifPoint.fromHandle (settled q) .B).kpoint (pos64 q)], ?_, ?_⟩
  · unfold contourIntoKurbo intoPenOperations
    have ho : isClosed [p, q] = false := by simp [isClosed, isOpen, hp]
    simp only [ho, hr]
    rfl
  · exact List.Sublist.refl _

/-- C36 as stated is false for a closed contour: the second point, ending the only curve, is left out. -/
theorem C36_false : ∃ (c : Contour Unit) (els : List PathEl), isClosed c = true ∧ c.length = 3 ∧
    contourIntoKurbo c = .ok els ∧ ∃ p ∈ c, pos64 p ∉ els.filterMap target := by
  have h : ∃ c : Contour Unit, c = [Sample.pt .line 0 0, Sample.cv 10 0 10 0 5 5, Sample.pt .line 10 10] ∧
      ∃ els, els = [PathEl.moveTo (pos64 (Sample.pt .line 0 0)), .lineTo (pos64 (Sample.pt .line 0 0)),
        .curveTo (pos64 (Sample.pt .line 10 0)) (pos64 (Sample.pt .line 10 10)) (pos64 (Sample.pt .line 10 10)),
        .lineTo (pos64 (Sample.pt .line 10 10)), .closePath] ∧
      isClosed c = true ∧ c.length = 3 ∧ contourIntoKurbo c = .ok els ∧ ∃ p ∈ c, pos64 p ∉ els.filterMap target := by
    refine ⟨_, rfl, _, rfl, ?_⟩
    decide +kernel
  obtain ⟨c, -, els, -, h⟩ := h
  exact ⟨c, els, h⟩

/-- C36 as stated is false for an open contour of lines: the `MoveTo` is taken back. -/
theorem C36_false_open : ∃ (c : Contour Unit) (els : List PathEl), isOpen c = true ∧ c.length = 3 ∧
    contourIntoKurbo c = .ok els ∧ ∃ p ∈ c, pos64 p ∉ els.filterMap target := by
  have h : ∃ c : Contour Unit, c = [Sample.pt .move 0 0, Sample.pt .line 10 0, Sample.pt .line 10 10] ∧
      ∃ els, els = [PathEl.lineTo (pos64 (Sample.pt .line 10 0)), .lineTo (pos64 (Sample.pt .line 10 10))] ∧
      isOpen c = true ∧ c.length = 3 ∧ contourIntoKurbo c = .ok els ∧ ∃ p ∈ c, pos64 p ∉ els.filterMap target := by
    refine ⟨_, rfl, _, rfl, ?_⟩
    decide +kernel
  obtain ⟨c, -, els, -, h⟩ := h
  exact ⟨c, els, h⟩

/-- A closed contour with curves and lines that meets the hypotheses of `C36_partial`. -/
example : ∃ p q : Point Unit, ∃ rest, p.ptype ≠ .move ∧ rest.length = 2 ∧
    (∃ x ∈ refigure (p :: q :: rest), x.ptype = .line) ∧ (∃ x ∈ refigure (p :: q :: rest), x.ptype = .curve) ∧
    ∀ x ∈ openPairs (refigure (p :: q :: rest)), x.1.ptype = .line → x.2.ptype = .line := by
  refine ⟨Sample.cv 0 0 1 1 2 2, Sample.cv 10 0 11 1 12 2, [Sample.pt .line 10 10, Sample.pt .line 0 10], ?_⟩
  decide +kernel

/-! ## C37 -/

/-- Does every `ClosePath` close an open subpath, given whether one is open at the start? -/
def closesFrom : Bool → List PathEl → Bool
  | _, [] => true
  | _, .moveTo _ :: l => closesFrom true l
  | b, .closePath :: l => b && closesFrom false l
  | b, _ :: l => closesFrom b l

theorem closesFrom_iff (l : List PathEl) : ∀ b, closesFrom b l = true ↔
    ∀ pre post, l = pre ++ .closePath :: post → (b = true ∧ .closePath ∉ pre) ∨ ∃ u p v, pre = u ++ .moveTo p :: v ∧ .closePath ∉ v := by
  -- an element that changes nothing
  have other : ∀ (e : PathEl) (l : List PathEl) (b : Bool), (∀ p, e ≠ .moveTo p) → e ≠ .closePath →
      ((∀ pre post, l = pre ++ .closePath :: post → (b = true ∧ .closePath ∉ pre) ∨ ∃ u p v, pre = u ++ .moveTo p :: v ∧ .closePath ∉ v) ↔
      (∀ pre post, e :: l = pre ++ .closePath :: post → (b = true ∧ .closePath ∉ pre) ∨ ∃ u p v, pre = u ++ .moveTo p :: v ∧ .closePath ∉ v)) := by
    intro e l b h1 h2
    constructor
    · intro h pre post hl
      cases pre with
      | nil => simp only [List.nil_append, List.cons.injEq] at hl; exact absurd hl.1 h2
      | cons a pre =>
        simp only [List.cons_append, List.cons.injEq] at hl
        obtain ⟨rfl, hl⟩ := hl
        rcases h pre post hl with ⟨hb, hn⟩ | ⟨u, p, v, rfl, hn⟩
        · exact Or.inl ⟨hb, by simp [hn, Ne.symm h2]⟩
        · exact Or.inr ⟨e :: u, p, v, rfl, hn⟩
    · intro h pre post hl
      rcases h (e :: pre) post (by rw [hl]; rfl) with ⟨hb, hn⟩ | ⟨u, p, v, hu, hn⟩
      · exact Or.inl ⟨hb, fun hm => hn (List.mem_cons_of_mem _ hm)⟩
      · cases u with
        | nil => simp only [List.nil_append, List.cons.injEq] at hu; exact absurd hu.1 (h1 p)
        | cons a u =>
          simp only [List.cons_append, List.cons.injEq] at hu
          exact Or.inr ⟨u, p, v, hu.2, hn⟩
  induction l with
  | nil => intro b; simp [closesFrom]
  | cons e l ih =>
    intro b
    cases e with
    | moveTo m =>
      rw [closesFrom, ih true]
      constructor
      · intro h pre post hl
        cases pre with
        | nil => cases hl
        | cons a pre =>
          simp only [List.cons_append, List.cons.injEq] at hl
          obtain ⟨rfl, hl⟩ := hl
          rcases h pre post hl with ⟨-, hn⟩ | ⟨u, p, v, rfl, hn⟩
          · exact Or.inr ⟨[], m, pre, rfl, hn⟩
          · exact Or.inr ⟨.moveTo m :: u, p, v, rfl, hn⟩
      · intro h pre post hl
        rcases h (.moveTo m :: pre) post (by rw [hl]; rfl) with ⟨-, hn⟩ | ⟨u, p, v, hu, hn⟩
        · exact Or.inl ⟨rfl, fun hm => hn (List.mem_cons_of_mem _ hm)⟩
        · cases u with
          | nil =>
            simp only [List.nil_append, List.cons.injEq] at hu
            exact Or.inl ⟨rfl, hu.2 ▸ hn⟩
          | cons a u =>
            simp only [List.cons_append, List.cons.injEq] at hu
            exact Or.inr ⟨u, p, v, hu.2, hn⟩
    | closePath =>
      rw [closesFrom, Bool.and_eq_true, ih false]
      constructor
      · rintro ⟨hb, h⟩ pre post hl
        cases pre with
        | nil => exact Or.inl ⟨hb, by simp⟩
        | cons a pre =>
          simp only [List.cons_append, List.cons.injEq] at hl
          obtain ⟨rfl, hl⟩ := hl
          rcases h pre post hl with ⟨h0, -⟩ | ⟨u, p, v, rfl, hn⟩
          · cases h0
          · exact Or.inr ⟨.closePath :: u, p, v, rfl, hn⟩
      · intro h
        constructor
        · rcases h [] l rfl with ⟨hb, -⟩ | ⟨u, p, v, hu, -⟩
          · exact hb
          · cases u <;> cases hu
        · intro pre post hl
          rcases h (.closePath :: pre) post (by rw [hl]; rfl) with ⟨-, hn⟩ | ⟨u, p, v, hu, hn⟩
          · exact absurd (List.mem_cons_self ..) hn
          · cases u with
            | nil => cases hu
            | cons a u =>
              simp only [List.cons_append, List.cons.injEq] at hu
              exact Or.inr ⟨u, p, v, hu.2, hn⟩
    | lineTo p => exact (ih b).trans (other _ _ _ (by simp) (by simp))
    | quadTo c p => exact (ih b).trans (other _ _ _ (by simp) (by simp))
    | curveTo c1 c2 p => exact (ih b).trans (other _ _ _ (by simp) (by simp))

theorem closesFrom_false (l : List PathEl) : closesFrom false l = true ↔ ClosesOpened l := by
  rw [closesFrom_iff]
  unfold ClosesOpened
  simp

/-- Does a list of operations begin with `MoveTo`? -/
def beginsMove : List PenOp → Bool
  | .moveTo _ :: _ => true
  | _ => false

/-- A quadratic curve. -/
def isQuad : PenOp → Bool
  | .quadTo .. => true
  | _ => false

theorem beginsMove_append (kc : List PenOp) (e : PenOp) (he : ∀ p, e ≠ .moveTo p) :
    beginsMove (kc ++ [e]) = beginsMove kc := by
  cases kc with
  | nil => cases e <;> first | rfl | exact absurd rfl (he _)
  | cons a kc => cases a <;> rfl

theorem splitLoop_spec (l : List PathEl) : ∀ (ko : List (List PenOp)) (kc : List PenOp),
    (closesFrom (beginsMove kc) l = false → splitLoop ko kc (l.map PathEl.penOp) = .panic) ∧
    (closesFrom (beginsMove kc) l = true → ∃ ko' kc', splitLoop ko kc (l.map PathEl.penOp) = .ok (ko', kc') ∧
      ((ko'.flatten ++ kc').any isQuad = ((ko.flatten ++ kc).any isQuad || l.any fun e => isQuad e.penOp))) := by
  induction l with
  | nil =>
    intro ko kc
    refine ⟨fun h => by simp [closesFrom] at h, fun _ => ⟨ko, kc, rfl, by simp⟩⟩
  | cons e l ih =>
    intro ko kc
    have other : (∀ p, e.penOp ≠ .moveTo p) → e.penOp ≠ .close →
        closesFrom (beginsMove kc) (e :: l) = closesFrom (beginsMove kc) l →
        splitLoop ko kc ((e :: l).map PathEl.penOp) = splitLoop ko (kc ++ [e.penOp]) (l.map PathEl.penOp) →
        ((closesFrom (beginsMove kc) (e :: l) = false → splitLoop ko kc ((e :: l).map PathEl.penOp) = .panic) ∧
        (closesFrom (beginsMove kc) (e :: l) = true → ∃ ko' kc', splitLoop ko kc ((e :: l).map PathEl.penOp) = .ok (ko', kc') ∧
          ((ko'.flatten ++ kc').any isQuad = ((ko.flatten ++ kc).any isQuad || (e :: l).any fun e => isQuad e.penOp)))) := by
      intro h1 _ h3 h4
      have := ih ko (kc ++ [e.penOp])
      rw [beginsMove_append _ _ h1] at this
      rw [h3, h4]
      refine ⟨this.1, fun h => ?_⟩
      obtain ⟨ko', kc', h5, h6⟩ := this.2 h
      refine ⟨ko', kc', h5, ?_⟩
      rw [h6]
      simp [Bool.or_assoc]
    cases e with
    | lineTo p => exact other (by simp [PathEl.penOp]) (by simp [PathEl.penOp]) rfl rfl
    | quadTo c p => exact other (by simp [PathEl.penOp]) (by simp [PathEl.penOp]) rfl rfl
    | curveTo c1 c2 p => exact other (by simp [PathEl.penOp]) (by simp [PathEl.penOp]) rfl rfl
    | moveTo m =>
      have := ih (if kc.isEmpty then ko else ko ++ [kc]) [.moveTo (.ofKurbo m .move)]
      simp only [closesFrom, List.map_cons, PathEl.penOp, splitLoop, beginsMove] at this ⊢
      refine ⟨this.1, fun h => ?_⟩
      obtain ⟨ko', kc', h5, h6⟩ := this.2 h
      refine ⟨ko', kc', h5, ?_⟩
      rw [h6]
      cases kc <;> simp [isQuad]
    | closePath =>
      match kc with
      | .moveTo m :: kc =>
        have := ih ko (.curveTo m m m :: kc)
        simp only [closesFrom, List.map_cons, PathEl.penOp, splitLoop, beginsMove, Bool.true_and] at this ⊢
        refine ⟨this.1, fun h => ?_⟩
        obtain ⟨ko', kc', h5, h6⟩ := this.2 h
        refine ⟨ko', kc', h5, ?_⟩
        rw [h6]
        simp [isQuad]
      | [] => exact ⟨fun _ => rfl, fun h => by simp [closesFrom, beginsMove] at h⟩
      | .lineTo _ :: _ => exact ⟨fun _ => rfl, fun h => by simp [closesFrom, beginsMove] at h⟩
      | .quadTo .. :: _ => exact ⟨fun _ => rfl, fun h => by simp [closesFrom, beginsMove] at h⟩
      | .curveTo .. :: _ => exact ⟨fun _ => rfl, fun h => by simp [closesFrom, beginsMove] at h⟩
      | .close :: _ => exact ⟨fun _ => rfl, fun h => by simp [closesFrom, beginsMove] at h⟩

theorem penPoint_spec (el : PenOp) (next : List GlifPoint) :
    (isQuad el = true → (penPoint el next : R (List (Point PD))) = .panic) ∧
    (isQuad el = false → ∃ c, (penPoint el next : R (List (Point PD))) = .ok c) := by
  cases el with
  | quadTo c p => exact ⟨fun _ => rfl, fun h => by simp [isQuad] at h⟩
  | moveTo p => exact ⟨fun h => by simp [isQuad] at h, fun _ => ⟨_, rfl⟩⟩
  | close => exact ⟨fun h => by simp [isQuad] at h, fun _ => ⟨_, rfl⟩⟩
  | curveTo a b p => exact ⟨fun h => by simp [isQuad] at h, fun _ => ⟨_, rfl⟩⟩
  | lineTo p =>
    refine ⟨fun h => by simp [isQuad] at h, fun _ => ?_⟩
    simp only [penPoint, PenOp.points, PenOp.ptype]
    split <;> exact ⟨_, rfl⟩

theorem penPoints_spec (first : PenOp) (l : List PenOp) :
    (l.any isQuad = true → (penPoints first l : R (Contour PD)) = .panic) ∧
    (l.any isQuad = false → ∃ c, (penPoints first l : R (Contour PD)) = .ok c) := by
  induction l with
  | nil => exact ⟨fun h => by simp at h, fun _ => ⟨_, rfl⟩⟩
  | cons el l ih =>
    cases l with
    | nil => simpa [penPoints] using penPoint_spec el first.points
    | cons el' l =>
      rw [penPoints, List.any_cons]
      have hp := penPoint_spec (PD := PD) el el'.points
      by_cases hq : isQuad el = true
      · rw [hp.1 hq]
        exact ⟨fun _ => rfl, fun h => by simp [hq] at h⟩
      · simp only [Bool.not_eq_true] at hq
        obtain ⟨c, hc⟩ := hp.2 hq
        rw [hc, hq]
        simp only [Out.bind_ok, Bool.false_or]
        refine ⟨fun h => by rw [ih.1 h]; rfl, fun h => ?_⟩
        obtain ⟨d, hd⟩ := ih.2 h
        rw [hd]
        exact ⟨_, rfl⟩

theorem penContour_spec (l : List PenOp) :
    (l.any isQuad = true → (penContour l : R (Contour PD)) = .panic) ∧
    (l.any isQuad = false → ∃ c, (penContour l : R (Contour PD)) = .ok c) := by
  cases l with
  | nil => exact ⟨fun h => by simp at h, fun _ => ⟨_, rfl⟩⟩
  | cons el l =>
    have := penPoints_spec (PD := PD) el (el :: l)
    simp only [penContour]
    refine ⟨fun h => by rw [this.1 h]; rfl, fun h => ?_⟩
    obtain ⟨c, hc⟩ := this.2 h
    rw [hc]
    exact ⟨_, rfl⟩

theorem penOutline_spec (ks : List (List PenOp)) :
    (ks.flatten.any isQuad = true → (penOutline ks : R (Outline PD)) = .panic) ∧
    (ks.flatten.any isQuad = false → ∃ o, (penOutline ks : R (Outline PD)) = .ok o) := by
  unfold penOutline
  induction ks with
  | nil => exact ⟨fun h => by simp at h, fun _ => ⟨_, rfl⟩⟩
  | cons k ks ih =>
    rw [List.flatten_cons, List.any_append, Out.mapM'_cons]
    have hk := penContour_spec (PD := PD) k
    by_cases hq : k.any isQuad = true
    · rw [hk.1 hq]
      exact ⟨fun _ => rfl, fun h => by simp [hq] at h⟩
    · simp only [Bool.not_eq_true] at hq
      obtain ⟨c, hc⟩ := hk.2 hq
      rw [hc, hq]
      simp only [Out.bind_ok, Bool.false_or]
      refine ⟨fun h => by rw [ih.1 h]; rfl, fun h => ?_⟩
      obtain ⟨d, hd⟩ := ih.2 h
      rw [hd]
      exact ⟨_, rfl⟩

/-- Exactly the following paths make `from_kurbo` panic, and it never returns an error: those of two or
more elements with a quadratic curve, or with a `ClosePath` that closes nothing. -/
theorem C37_exact (path : List PathEl) :
    ((outlineFromKurbo path : R (Outline PD)) = .panic ↔
      2 ≤ path.length ∧ ((∃ c p, .quadTo c p ∈ path) ∨ ¬ ClosesOpened path)) ∧
    ∀ e, (outlineFromKurbo path : R (Outline PD)) ≠ .err e := by
  unfold outlineFromKurbo splitPenOperations
  rw [List.length_map]
  by_cases h2 : path.length ≤ 1
  · rw [if_pos h2]
    refine ⟨⟨fun h => ?_, fun h => by omega⟩, fun e h => ?_⟩ <;> cases h
  · rw [if_neg h2, ← closesFrom_false]
    have hs := splitLoop_spec path [] []
    have hquad : (path.any fun e => isQuad e.penOp) = true ↔ ∃ c p, PathEl.quadTo c p ∈ path := by
      rw [List.any_eq_true]
      constructor
      · rintro ⟨e, he, hq⟩
        cases e with
        | quadTo c p => exact ⟨c, p, he⟩
        | _ => simp [PathEl.penOp, isQuad] at hq
      · rintro ⟨c, p, h⟩
        exact ⟨_, h, rfl⟩
    by_cases hc : closesFrom false path = true
    · obtain ⟨ko, kc, h1, h3⟩ := hs.2 hc
      rw [h1]
      simp only [Out.bind_ok]
      have hfl : (if kc.isEmpty then ko else ko ++ [kc]).flatten = ko.flatten ++ kc := by
        cases kc <;> simp
      have ho := penOutline_spec (PD := PD) (if kc.isEmpty then ko else ko ++ [kc])
      rw [hfl, h3] at ho
      simp only [List.flatten_nil, List.nil_append, List.any_nil, Bool.false_or] at ho
      by_cases hq : (path.any fun e => isQuad e.penOp) = true
      · rw [ho.1 hq]
        refine ⟨⟨fun _ => ⟨by omega, Or.inl (hquad.1 hq)⟩, fun _ => rfl⟩, by simp⟩
      · obtain ⟨o, ho'⟩ := ho.2 (by simpa using hq)
        rw [ho']
        refine ⟨⟨fun h => (by cases h), fun h => ?_⟩, by simp⟩
        rcases h.2 with h | h
        · exact absurd (hquad.2 h) hq
        · exact absurd hc h
    · rw [hs.1 (by simpa [beginsMove] using hc)]
      refine ⟨⟨fun _ => ⟨by omega, Or.inr hc⟩, fun _ => rfl⟩, fun e h => ?_⟩
      cases h

/-- **C37**, for paths without quadratic curves in which every `ClosePath` closes something.  Missing: the
other paths, for which it is false (`C37_false`), but for those of one element (`C37_exact`). -/
theorem C37_partial (path : List PathEl) (hq : ∀ c p, .quadTo c p ∉ path) (hc : ClosesOpened path) :
    ∃ o, (outlineFromKurbo path : R (Outline PD)) = .ok o := by
  obtain ⟨h1, h2⟩ := C37_exact (PD := PD) path
  match h : (outlineFromKurbo path : R (Outline PD)) with
  | .ok o => exact ⟨o, rfl⟩
  | .err e => exact absurd h (h2 e)
  | .panic =>
    obtain ⟨-, ⟨c, p, h3⟩ | h3⟩ := h1.1 h
    · exact absurd h3 (hq c p)
    · exact absurd hc h3

/-- C37 as stated is false: any path with two elements of which one is quadratic panics. -/
theorem C37_false (a b c : F64 × F64) : (outlineFromKurbo [.moveTo a, .quadTo b c] : R (Outline PD)) = .panic :=
  (C37_exact _).1.2 ⟨by simp, Or.inl ⟨b, c, by simp⟩⟩

/-- So does a second `ClosePath` for the same subpath. -/
theorem C37_false_close (a b : F64 × F64) :
    (outlineFromKurbo [.moveTo a, .lineTo b, .closePath, .closePath] : R (Outline PD)) = .panic := by
  refine (C37_exact _).1.2 ⟨by simp, Or.inr ?_⟩
  rw [← closesFrom_false]
  simp [closesFrom]

/-- Paths of closed contours meet the hypotheses of `C37_partial`. -/
theorem closedPath_closes {s : F64 × F64} {els : List PathEl} (h : ClosedPath s els) :
    (∀ c p, .quadTo c p ∉ els) ∧ ClosesOpened els := by
  obtain ⟨mid, rfl, hm⟩ := h
  constructor
  · intro c p hin
    rcases List.mem_append.1 hin with hin | hin
    · rcases List.mem_cons.1 hin with hin | hin
      · cases hin
      · rcases hm _ hin with ⟨_, h⟩ | ⟨_, _, _, h⟩ <;> cases h
    · simp at hin
  · rw [← closesFrom_false, List.cons_append, closesFrom]
    induction mid with
    | nil => rfl
    | cons e mid ih =>
      have hr := ih fun x hx => hm x (List.mem_cons_of_mem _ hx)
      rcases hm e (List.mem_cons_self ..) with ⟨p, rfl⟩ | ⟨a, b, p, rfl⟩ <;> exact hr

example (p q : Point PD) (rest : Contour PD) (hp : p.ptype ≠ .move) : ∃ els, contourIntoKurbo (p :: q :: rest) = .ok els ∧
    (∀ c p, .quadTo c p ∉ els) ∧ ClosesOpened els := by
  obtain ⟨els, h1, h2⟩ := C35_well_formed p q rest hp
  exact ⟨els, h1, closedPath_closes h2⟩

/-! ## C34 -/

/-- A point as it comes back: handles always explicit, nothing but the drawing kept. -/
def cameBack (p : Point PD) : Point PD :=
  { x := p.x, y := p.y, a := .at (outPos p).1 (outPos p).2, b := .at (inPos p).1 (inPos p).2, ptype := .curve }

/-- What the curve from `p` to `q` has become when it is read from the path. -/
def backOp (p q : Point PD) : PenOp :=
  .curveTo (.fromXYType q.x q.y .offcurve) (.fromXYType (inPos q).1 (inPos q).2 .offcurve)
    (.fromXYType (outPos p).1 (outPos p).2 .curve)

theorem handleOrColocated_A (p : Point PD) : p.handleOrColocated .A = outPos p := rfl
theorem handleOrColocated_B (p : Point PD) : p.handleOrColocated .B = inPos p := rfl

theorem ofKurbo_kpoint (x y : F32) (t : PointType) (gp : GlifPoint) (hx : gp.x = .float x) (hy : gp.y = .float y) :
    GlifPoint.ofKurbo gp.kpoint t = .fromXYType x y t := by
  unfold GlifPoint.ofKurbo GlifPoint.kpoint
  rw [hx, hy]
  simp only [IOF.toF64, to32_to64]

theorem opOf_back (p q : Point PD) (hp : p.ptype = .curve) : (opOf (p, q)).pathEl.penOp = backOp p q := by
  unfold opOf backOp
  rw [if_neg (by simp [hp])]
  simp only [PenOp.pathEl, PathEl.penOp]
  rw [ofKurbo_kpoint q.x q.y _ _ rfl rfl, ofKurbo_kpoint (inPos q).1 (inPos q).2 _ _ rfl rfl,
    ofKurbo_kpoint (outPos p).1 (outPos p).2 _ _ rfl rfl]

/-- The curves of the chain `p`, `l`, `e`. -/
def backOps (p : Point PD) (l : List (Point PD)) (e : Point PD) : List PenOp :=
  ((p :: l).zip (l ++ [e])).map fun x => backOp x.1 x.2

theorem penPoints_back (first : PenOp) (q0 q1 q2 : GlifPoint) (hf : first.points = [q0, q1, q2]) (e : Point PD) (l : List (Point PD)) :
    ∀ p, (penPoints first (backOps p l e) : R (Contour PD)) =
      .ok (l.map cameBack ++ [{ x := e.x, y := e.y, a := .at q2.x.toF32 q2.y.toF32, b := (cameBack e).b, ptype := .curve }]) := by
  induction l with
  | nil =>
    intro p
    simp only [backOps, List.nil_append, List.zip_cons_cons, List.zip_nil_left, List.map_cons, List.map_nil, penPoints, hf]
    rfl
  | cons q l ih =>
    intro p
    obtain ⟨z, rest, hz⟩ : ∃ z rest, backOps q l e = backOp q z :: rest := by
      cases l with
      | nil => exact ⟨_, _, rfl⟩
      | cons a l => exact ⟨_, _, rfl⟩
    have hrec := ih q
    rw [hz] at hrec
    have hstep : backOps p (q :: l) e = backOp p q :: backOp q z :: rest := by
      rw [← hz]; rfl
    rw [hstep, penPoints, hrec]
    simp only [penPoint, backOp, PenOp.points, PenOp.ptype, GlifPoint.fromXYType, IOF.ofF32, IOF.toF32, Out.bind_ok]
    rfl

theorem mergeEnds_back (first : Point PD) (mid : Contour PD) (last : Point PD) (hx : last.x = first.x) (hy : last.y = first.y)
    (nx : first.x.isNaN = false) (ny : first.y.isNaN = false) :
    mergeEnds (first :: (mid ++ [last])) = { first with b := last.b } :: mid := by
  have fr : ∀ {f : Fmt} (x : Flt f), x.isNaN = false → x.feq x = true := by
    intro f x h
    cases x with
    | nan => simp [Flt.isNaN] at h
    | num s k hk => simp [Flt.feq]
  have e : mid ++ [last] = (mid ++ [last]).head (by simp) :: (mid ++ [last]).tail := (List.cons_head_tail _).symm
  rw [e, mergeEnds, ← e]
  simp only [List.getLast?_append, List.getLast?_singleton, Option.some_or, hx, hy, fr _ nx, fr _ ny, Bool.and_self, if_true,
    List.dropLast_concat]

/-- One closed subpath of curves, read back. -/
theorem penContour_back (p : Point PD) (rest : Contour PD) (nx : p.x.isNaN = false) (ny : p.y.isNaN = false) (m : GlifPoint)
    (hm : m = .fromXYType p.x p.y .move) :
    (penContour (.curveTo m m m :: backOps p rest p) : R (Contour PD)) = .ok ((p :: rest).map cameBack) := by
  obtain ⟨z, rest', hz⟩ : ∃ z rest', backOps p rest p = backOp p z :: rest' := by
    cases rest with
    | nil => exact ⟨_, _, rfl⟩
    | cons a l => exact ⟨_, _, rfl⟩
  have hb := penPoints_back (PD := PD) (.curveTo m m m) m m m rfl p rest p
  rw [hz] at hb ⊢
  simp only [penContour, penPoints, hb]
  simp only [penPoint, backOp, PenOp.points, PenOp.ptype, GlifPoint.fromXYType, IOF.ofF32, IOF.toF32, Out.bind_ok, hm,
    List.singleton_append]
  exact congrArg Out.ok (Eq.trans (mergeEnds_back (PD := PD) _ _ _ rfl rfl nx ny) rfl)

/-- Splitting off one closed subpath. -/
theorem splitLoop_closed (m : GlifPoint) (mid rest : List PenOp) (hm : ∀ e ∈ mid, ∃ a b c, e = .curveTo a b c)
    (ko : List (List PenOp)) (kc : List PenOp) :
    splitLoop ko kc (.moveTo m :: mid ++ .close :: rest) =
      splitLoop (if kc.isEmpty then ko else ko ++ [kc]) (.curveTo m m m :: mid) rest := by
  have key : ∀ (mid : List PenOp) (ko : List (List PenOp)) (kc : List PenOp), (∀ e ∈ mid, ∃ a b c, e = .curveTo a b c) →
      splitLoop ko kc (mid ++ .close :: rest) = splitLoop ko (kc ++ mid) (.close :: rest) := by
    intro mid
    induction mid with
    | nil => intro ko kc _; simp
    | cons e mid ih =>
      intro ko kc h
      obtain ⟨a, b, c, rfl⟩ := h e (List.mem_cons_self ..)
      have := ih ko (kc ++ [.curveTo a b c]) fun x hx => h x (List.mem_cons_of_mem _ hx)
      rw [List.append_assoc] at this
      exact this
  rw [List.cons_append, splitLoop, key _ _ _ hm]
  simp only [List.singleton_append, splitLoop]

/-- What is needed of a contour. -/
structure ClosedCurves (c : Contour PD) : Prop where
  two : 2 ≤ c.length
  curve : ∀ p ∈ c, p.ptype = .curve
  curved : AllCurved c
  nums : ∀ p ∈ c, NoNaN p

theorem typeByHandles_curve {a b : Handle} (h : a ≠ .colocated ∨ b ≠ .colocated) : typeByHandles a b = .curve := by
  unfold typeByHandles
  rw [if_neg]
  rintro ⟨h1, h2⟩
  exact h.elim (fun h => h h1) (fun h => h h2)

/-- Refiguring keeps curves curves. -/
theorem refigure_curves {p q : Point PD} {rest : Contour PD} (h : ClosedCurves (p :: q :: rest)) :
    refigure (p :: q :: rest) = (p :: q :: rest).map fun r => { settled r with ptype := .curve } := by
  rw [C30_result, refigured, List.map_cons]
  have hp : p.ptype ≠ .move := by rw [h.curve p (List.mem_cons_self ..)]; decide
  rw [if_neg hp]
  have hcl := h.curved
  congr 1
  · unfold retyped
    have : typeByHandles (closing (p :: q :: rest)) (settled p).b = .curve := by
      obtain ⟨z, hz⟩ : ∃ z, (p :: q :: rest).getLast? = some z := by
        cases hz : (p :: q :: rest).getLast? with
        | none => simp at hz
        | some z => exact ⟨z, rfl⟩
      have hmem : (z, p) ∈ closedPairs (p :: q :: rest) := by
        have := zip_getLast? p (q :: rest) p
        rw [hz] at this
        exact List.mem_of_getLast? this
      unfold closing
      rw [hz]
      apply typeByHandles_curve
      rcases hcl _ hmem with h | h
      · left
        intro e
        simp only [] at e h
        rw [e] at h
        apply h
        unfold settle
        split <;> rfl
      · exact Or.inr h
    rw [this]
  · have key : ∀ (l : List (Point PD)) (o e : Point PD),
        (∀ x ∈ (o :: l).zip (l ++ [e]), settle x.1.a x.1 ≠ .colocated ∨ settle x.2.b x.2 ≠ .colocated) →
        List.zipWith (fun o r => retyped (settled o).a r) (o :: l) l = l.map fun r => { settled r with ptype := .curve } := by
      intro l
      induction l with
      | nil => intros; rfl
      | cons a l ih =>
        intro o e hl
        rw [List.zipWith_cons_cons, List.map_cons, ih a e fun x hx => hl x (List.mem_cons_of_mem _ hx)]
        congr 1
        unfold retyped
        rw [show typeByHandles (settled o).a (settled a).b = .curve from typeByHandles_curve (hl (o, a) (List.mem_cons_self ..))]
    exact key (q :: rest) p p hcl

/-- The contour as it comes back. -/
def backContour (c : Contour PD) : Contour PD := c.map fun r => cameBack { settled r with ptype := .curve }

/-- The operations read from the path of a closed contour of curves, and how they are split off. -/
theorem kurbo_curves {c : Contour PD} (h : ClosedCurves c) : ∃ els m mid, contourIntoKurbo c = .ok els ∧
    els.map PathEl.penOp = .moveTo m :: mid ++ [.close] ∧ (∀ e ∈ mid, ∃ a b c, e = .curveTo a b c) ∧
    (penContour (.curveTo m m m :: mid) : R (Contour PD)) = .ok (backContour c) := by
  match c, h.two with
  | p :: q :: rest, _ =>
    have hp : p.ptype ≠ .move := by rw [h.curve p (List.mem_cons_self ..)]; decide
    obtain ⟨p', q', rest', hr, hf, hk⟩ := kurbo_closed (closed_of p q rest hp)
    rw [refigure_curves h] at hr
    have hall : ∀ x ∈ p' :: q' :: rest', x.ptype = .curve := by
      rw [← hr]
      intro x hx
      obtain ⟨y, -, rfl⟩ := List.mem_map.1 hx
      rfl
    have hmid : (midOps p' q' rest').map (fun o => o.pathEl.penOp) = backOps p' (q' :: rest') p' := by
      unfold midOps backOps
      have hq : q'.ptype ≠ .line := by rw [hall q' (by simp)]; decide
      rw [if_neg hq, List.map_append, List.map_map]
      change _ = backOp p' q' :: ((q' :: rest').zip (rest' ++ [p'])).map fun x => backOp x.1 x.2
      rw [← opOf_back p' q' (hall p' (by simp))]
      refine congrArg (List.cons _) ?_
      apply List.map_congr_left
      intro x hx
      exact opOf_back _ _ (hall _ (List.mem_cons_of_mem _ (List.of_mem_zip hx).1))
    refine ⟨_, .fromXYType p'.x p'.y .move, backOps p' (q' :: rest') p', hk, ?_, ?_, ?_⟩
    · rw [List.map_append, List.map_cons, List.map_map]
      change _ :: (midOps p' q' rest').map (fun o => o.pathEl.penOp) ++ _ = _
      rw [hmid]
      congr 2
      simp only [PathEl.penOp, GlifPoint.ofKurbo, pos64, to32_to64]
    · intro e he
      obtain ⟨x, -, rfl⟩ := List.mem_map.1 he
      exact ⟨_, _, _, rfl⟩
    · have hp' : p' = { settled p with ptype := .curve } := by
        simp only [List.map_cons, List.cons.injEq] at hr
        exact hr.1.symm
      have hn := h.nums p (List.mem_cons_self ..)
      rw [penContour_back p' (q' :: rest') (by rw [hp']; exact hn.1) (by rw [hp']; exact hn.2.1) _ rfl, ← hr]
      unfold backContour
      rw [List.map_map]
      rfl

theorem splitLoop_curves (o : Outline PD) (h : ∀ c ∈ o, ClosedCurves c) : ∃ els ks, outlineIntoKurbo o = .ok els ∧
    (∀ ko kc, ∃ ko' kc', splitLoop ko kc (els.map PathEl.penOp) = .ok (ko', kc') ∧
      (if kc'.isEmpty then ko' else ko' ++ [kc']) = (if kc.isEmpty then ko else ko ++ [kc]) ++ ks) ∧
    (penOutline ks : R (Outline PD)) = .ok (o.map backContour) ∧ (o ≠ [] → 2 ≤ els.length) := by
  induction o with
  | nil => exact ⟨[], [], rfl, fun ko kc => ⟨ko, kc, rfl, by simp⟩, rfl, fun h => absurd rfl h⟩
  | cons c o ih =>
    obtain ⟨els, ks, h1, h2, h3, -⟩ := ih fun d hd => h d (List.mem_cons_of_mem _ hd)
    obtain ⟨els0, m, mid, k1, k2, k3, k4⟩ := kurbo_curves (h c (List.mem_cons_self ..))
    refine ⟨els0 ++ els, (.curveTo m m m :: mid) :: ks, ?_, ?_, ?_, ?_⟩
    · rw [outlineIntoKurbo, k1]
      simp only [h1, Out.bind_ok]
    · intro ko kc
      rw [List.map_append, k2, List.append_assoc, List.singleton_append, splitLoop_closed _ _ _ k3]
      obtain ⟨ko', kc', h4, h5⟩ := h2 (if kc.isEmpty then ko else ko ++ [kc]) (.curveTo m m m :: mid)
      refine ⟨ko', kc', h4, ?_⟩
      rw [h5]
      simp
    · unfold penOutline at h3 ⊢
      rw [Out.mapM'_cons, k4, Out.bind_ok, h3]
      rfl
    · intro _
      have := congrArg List.length k2
      simp only [List.length_map, List.length_append, List.length_cons, List.length_nil] at this
      rw [List.length_append]
      omega

theorem feq_refl {f : Fmt} {x : Flt f} (h : x.isNaN = false) : x.feq x = true := by
  cases x with
  | nan => simp [Flt.isNaN] at h
  | num s k hk => simp [Flt.feq]

theorem feq_symm {f : Fmt} {x y : Flt f} (h : x.feq y = true) : y.feq x = true := by
  cases x with
  | nan => simp [Flt.feq] at h
  | num s k hk =>
    cases y with
    | nan => simp [Flt.feq] at h
    | num s' k' hk' =>
      simp only [Flt.feq, Bool.or_eq_true, Bool.and_eq_true, beq_iff_eq] at h ⊢
      obtain ⟨h1, h2⟩ := h
      exact ⟨h1.symm, h2.elim (fun h => Or.inl h.symm) fun h => Or.inr (h1 ▸ h)⟩

theorem settle_samePos (h : Handle) (p : Point PD) (pos : Handle → F32 × F32)
    (hat : ∀ x y, pos (.at x y) = (x, y)) (hco : pos .colocated = (p.x, p.y))
    (n1 : (pos h).1.isNaN = false) (n2 : (pos h).2.isNaN = false) : SamePos (pos (settle h p)) (pos h) := by
  unfold settle
  split
  · next hon =>
    obtain ⟨x, y, rfl, hx, hy⟩ := hon
    rw [hco, hat]
    exact ⟨feq_symm hx, feq_symm hy⟩
  · exact ⟨feq_refl n1, feq_refl n2⟩

theorem sameDrawn_back (p : Point PD) (hc : p.ptype = .curve) (hn : NoNaN p) :
    SameDrawn p (cameBack { settled p with ptype := .curve }) := by
  obtain ⟨n1, n2, n3, n4, n5, n6⟩ := hn
  refine ⟨rfl, rfl, hc.symm, ?_, ?_⟩
  · exact settle_samePos p.a p (fun h => outPos { p with a := h }) (fun _ _ => rfl) rfl n3 n4
  · exact settle_samePos p.b p (fun h => inPos { p with b := h }) (fun _ _ => rfl) rfl n5 n6

/-- **C34**, for outlines with at least one contour: closed contours of curves come back with the same
positions, types and handle positions (handles on their point are explicit afterwards).  Missing: the
outline without contours, for which it is false (`C34_false`). -/
theorem C34_partial (o : Outline PD) (hne : o ≠ []) (h : ∀ c ∈ o, ClosedCurves c) :
    ∃ els o', outlineIntoKurbo o = .ok els ∧ (outlineFromKurbo els : R (Outline PD)) = .ok o' ∧
      List.Forall₂ (List.Forall₂ SameDrawn) o o' := by
  obtain ⟨els, ks, h1, h2, h3, h4⟩ := splitLoop_curves o h
  refine ⟨els, o.map backContour, h1, ?_, ?_⟩
  · unfold outlineFromKurbo splitPenOperations
    obtain ⟨ko', kc', h5, h6⟩ := h2 [] []
    rw [List.length_map, if_neg (by have := h4 hne; omega), h5]
    simp only [Out.bind_ok]
    rw [h6]
    simpa using h3
  · rw [List.forall₂_map_right_iff]
    refine List.forall₂_same.2 fun c hc => ?_
    unfold backContour
    rw [List.forall₂_map_right_iff]
    exact List.forall₂_same.2 fun p hp => sameDrawn_back p ((h c hc).curve p hp) ((h c hc).nums p hp)

/-- C34 as stated is false for the outline without contours: it comes back with one, without points. -/
theorem C34_false : ∃ els, outlineIntoKurbo ([] : Outline PD) = .ok els ∧
    (outlineFromKurbo els : R (Outline PD)) = .ok [[]] := ⟨[], rfl, rfl⟩

/-- **C34**, exactly when it holds: closed contours of curves come back if and only if there are any. -/
theorem C34_exact (o : Outline PD) (h : ∀ c ∈ o, ClosedCurves c) :
    (∃ els o', outlineIntoKurbo o = .ok els ∧ (outlineFromKurbo els : R (Outline PD)) = .ok o' ∧
      List.Forall₂ (List.Forall₂ SameDrawn) o o') ↔ o ≠ [] := by
  refine ⟨?_, fun hne => C34_partial o hne h⟩
  rintro ⟨els, o', h1, h2, h3⟩ rfl
  obtain ⟨els', h4, h5⟩ := C34_false (PD := PD)
  rw [h4] at h1; cases h1
  rw [h5] at h2; cases h2
  cases h3

/-- Closed contours of lines do not come back as they were: the first point is a curve point afterwards. -/
theorem C34_lines_become_curves : ∃ (o o' : Outline Unit) (els : List PathEl),
    (∀ c ∈ o, ∀ p ∈ c, p.ptype = .line ∧ p.a = .colocated ∧ p.b = .colocated) ∧
    outlineIntoKurbo o = .ok els ∧ outlineFromKurbo els = .ok o' ∧
    ∃ c ∈ o', ∃ p ∈ c, p.ptype = .curve ∧ ¬ OnPoint p.a p ∧ p.a ≠ .colocated := by
  have h : ∃ o : Outline Unit, o = [[Sample.pt .line 0 0, Sample.pt .line 10 0, Sample.pt .line 10 10]] ∧
      ∃ els, outlineIntoKurbo o = .ok els ∧ ∃ o' : Outline Unit, outlineFromKurbo els = .ok o' ∧
      (∀ c ∈ o, ∀ p ∈ c, p.ptype = .line ∧ p.a = .colocated ∧ p.b = .colocated) ∧
      ∃ c ∈ o', ∃ p ∈ c, p.ptype = .curve ∧ ¬ OnPoint p.a p ∧ p.a ≠ .colocated := by
    refine ⟨_, rfl, [PathEl.moveTo (pos64 (Sample.pt .line 0 0)), .lineTo (pos64 (Sample.pt .line 10 0)),
        .lineTo (pos64 (Sample.pt .line 10 10)), .closePath], by decide +kernel,
      [[{ Sample.pt .curve 0 0 with b := .at (Sample.f 0) (Sample.f 0) }, Sample.pt .line 10 0,
        { Sample.pt .curve 10 10 with a := .at (Sample.f 0) (Sample.f 0) }]], ?_⟩
    decide +kernel
  obtain ⟨o, -, els, h1, o', h2, h3, h4⟩ := h
  exact ⟨o, o', els, h3, h1, h2, h4⟩

/-- Two curves back and forth meet the hypotheses of `C34_partial`. -/
example : ClosedCurves [Sample.cv 0 0 1 1 (-1) (-1), Sample.cv 10 0 10 0 9 1] := by
  refine ⟨by decide, by decide +kernel, ?_, ?_⟩
  · unfold AllCurved
    decide +kernel
  · unfold NoNaN
    decide +kernel

end GP
