import Verif.Spec.KurboDraw
import Verif.Props.PenOpsExact
/-!
# What the kurbo path of a contour draws (C107)
-/
open Fl
namespace GP
variable {PD : Type}
open Spec

/-! ## The refigured contour wants the same segments -/

/-- What `wantedSeg` looks at. -/
def segKey (p : Point PD) : (F64 × F64) × Handle × Handle := (pos64 p, settle p.a p, settle p.b p)

theorem wantedSeg_congr {p q p' q' : Point PD} (hp : segKey p' = segKey p) (hq : segKey q' = segKey q) :
    wantedSeg (p', q') = wantedSeg (p, q) := by
  simp only [segKey, Prod.mk.injEq] at hp hq
  have hh : ∀ {h : Handle} {x y : Point PD}, pos64 x = pos64 y → handlePos h x = handlePos h y := by
    intro h x y e
    cases h with
    | colocated => exact e
    | «at» => rfl
  have hs : StraightSeg (p', q') ↔ StraightSeg (p, q) := by
    unfold StraightSeg
    simp only [hp.2.1, hq.2.2]
  unfold wantedSeg
  by_cases h : StraightSeg (p, q)
  · rw [if_pos h, if_pos (hs.2 h)]
    simp only [hp.1, hq.1]
  · rw [if_neg h, if_neg fun e => h (hs.1 e)]
    simp only [hp.1, hp.2.1, hq.1, hq.2.2, hh hp.1, hh hq.1]

theorem refigure_segKey (c : Contour PD) : (refigure c).map segKey = c.map segKey := by
  rw [C30_result, refigured_map _ (fun p t => rfl)]
  apply List.map_congr_left
  intro p _
  show (pos64 p, settle (settle p.a p) p, settle (settle p.b p) p) = segKey p
  rw [settle_settle, settle_settle]
  rfl

theorem wanted_zip : ∀ (l m l' m' : List (Point PD)), l'.map segKey = l.map segKey → m'.map segKey = m.map segKey →
    (l'.zip m').map wantedSeg = (l.zip m).map wantedSeg := by
  intro l
  induction l with
  | nil =>
    intro m l' m' h _
    have : l' = [] := by simpa using h
    subst this
    simp
  | cons p l ih =>
    intro m l' m' h1 h2
    cases l' with
    | nil => cases h1
    | cons p' l' =>
      cases m with
      | nil =>
        have : m' = [] := by simpa using h2
        subst this
        simp
      | cons q m =>
        cases m' with
        | nil => cases h2
        | cons q' m' =>
          simp only [List.map_cons, List.cons.injEq] at h1 h2
          simp only [List.zip_cons_cons, List.map_cons]
          rw [wantedSeg_congr h1.1 h2.1, ih m l' m' h1.2 h2.2]

theorem wanted_refigure_closed (c : Contour PD) : (closedPairs (refigure c)).map wantedSeg = (closedPairs c).map wantedSeg := by
  have h := refigure_segKey c
  unfold closedPairs
  apply wanted_zip _ _ _ _ h
  rw [List.map_append, List.map_append, List.map_tail, List.map_tail, List.map_take, List.map_take, h]

theorem wanted_refigure_open (c : Contour PD) : (openPairs (refigure c)).map wantedSeg = (openPairs c).map wantedSeg := by
  have h := refigure_segKey c
  unfold openPairs
  apply wanted_zip _ _ _ _ h
  rw [List.map_tail, List.map_tail, h]

/-! ## Elements of refigured points -/

/-- The handles are settled already. -/
def Tidy (p : Point PD) : Prop := settle p.a p = p.a ∧ settle p.b p = p.b

theorem refigure_tidy (c : Contour PD) : ∀ p ∈ refigure c, Tidy p := by
  intro p hp
  have := C30_no_handle_on_point c p hp
  exact ⟨if_neg this.1, if_neg this.2⟩

theorem kpoint_A (p : Point PD) : (GlifPoint.fromHandle p .A).kpoint = handlePos p.a p := by
  unfold GlifPoint.fromHandle Point.handleOrColocated Point.handle GlifPoint.fromXYType GlifPoint.kpoint handlePos
  cases p.a <;> rfl

theorem kpoint_B (p : Point PD) : (GlifPoint.fromHandle p .B).kpoint = handlePos p.b p := by
  unfold GlifPoint.fromHandle Point.handleOrColocated Point.handle GlifPoint.fromXYType GlifPoint.kpoint handlePos
  cases p.b <;> rfl

theorem opOf_line {x y : Point PD} (h : x.ptype = .line) : (opOf (x, y)).pathEl = .lineTo (pos64 x) := by
  unfold opOf
  rw [if_pos h]
  rfl

theorem opOf_curve {x y : Point PD} (h : x.ptype ≠ .line) :
    (opOf (x, y)).pathEl = .curveTo (handlePos x.a x) (handlePos y.b y) (pos64 y) := by
  unfold opOf
  rw [if_neg h, PenOp.pathEl, kpoint_A, kpoint_B]
  rfl

theorem wanted_straight {x : Point PD × Point PD} (h : StraightSeg x) : wantedSeg x = .line (pos64 x.1) (pos64 x.2) := if_pos h

theorem wanted_curved {x y : Point PD} (h : ¬ StraightSeg (x, y)) (hx : Tidy x) (hy : Tidy y) :
    wantedSeg (x, y) = .cubic (pos64 x) (handlePos x.a x) (handlePos y.b y) (pos64 y) := by
  unfold wantedSeg
  rw [if_neg h, hx.1, hy.2]

theorem wanted_line_iff {x : Point PD × Point PD} : (∃ a b, wantedSeg x = .line a b) ↔ StraightSeg x := by
  unfold wantedSeg
  by_cases h : StraightSeg x
  · rw [if_pos h]; exact ⟨fun _ => h, fun _ => ⟨_, _, rfl⟩⟩
  · rw [if_neg h]; exact ⟨fun ⟨_, _, e⟩ => (nomatch e), fun e => absurd e h⟩

/-- The type of each of the points agrees with the segment that ends in it. -/
def TypedFrom (z : Point PD) : List (Point PD) → Prop
  | [] => True
  | x :: l => (x.ptype = .line ↔ StraightSeg (z, x)) ∧ TypedFrom x l

theorem typedFrom_of (l : List (Point PD)) : ∀ z, (∀ x ∈ z :: l, Tidy x) →
    (∀ x ∈ (z :: l).zip l, x.2.ptype = typeByHandles x.1.a x.2.b) → TypedFrom z l := by
  induction l with
  | nil => intro _ _ _; trivial
  | cons x l ih =>
    intro z ht h
    refine ⟨?_, ih x (fun y hy => ht y (List.mem_cons_of_mem _ hy)) fun y hy => h y (List.mem_cons_of_mem _ hy)⟩
    have e := h (z, x) (List.mem_cons_self ..)
    simp only at e
    unfold StraightSeg
    rw [e, (ht z (List.mem_cons_self ..)).1, (ht x (List.mem_cons_of_mem _ (List.mem_cons_self ..))).2]
    unfold typeByHandles
    by_cases hh : z.a = .colocated ∧ x.b = .colocated
    · rw [if_pos hh]; exact ⟨fun _ => hh, fun _ => rfl⟩
    · rw [if_neg hh]; exact ⟨fun e => (nomatch e), fun e => absurd e hh⟩

/-! ## Straight -/

/-- The elements for `x :: l`, with `p` at the end. -/
def elsOf (x : Point PD) (l : List (Point PD)) (p : Point PD) : List PathEl := (((x :: l).zip (l ++ [p])).map opOf).map PenOp.pathEl

theorem elsOf_cons (x y : Point PD) (l : List (Point PD)) (p : Point PD) :
    elsOf x (y :: l) p = (opOf (x, y)).pathEl :: elsOf y l p := rfl

theorem elsOf_nil (x p : Point PD) : elsOf x [] p = [(opOf (x, p)).pathEl] := rfl

/-- Lines only. -/
theorem straight_drawn (p : Point PD) (l : List (Point PD)) : ∀ z x : Point PD, TypedFrom z (x :: l) →
    (∀ y ∈ (z :: x :: l).zip (x :: l ++ [p]), StraightSeg y) → (∀ y ∈ x :: l, samePlace (pos64 y) (pos64 p) = false) →
    segsFrom (pos64 p) (pos64 z) (elsOf x l p ++ [.closePath]) = ((z :: x :: l).zip (x :: l ++ [p])).map wantedSeg := by
  induction l with
  | nil =>
    intro z x ht hs hf
    have hx : x.ptype = .line := ht.1.2 (hs (z, x) (List.mem_cons_self ..))
    rw [elsOf_nil, opOf_line hx]
    simp only [List.cons_append, List.nil_append, segsFrom, hf x (List.mem_cons_self ..), List.append_nil, List.zip_cons_cons,
      List.zip_nil_right, List.map_cons, List.map_nil]
    rw [wanted_straight (hs (z, x) (List.mem_cons_self ..)),
      wanted_straight (hs (x, p) (List.mem_cons_of_mem _ (List.mem_cons_self ..)))]
    rfl
  | cons y l ih =>
    intro z x ht hs hf
    have hx : x.ptype = .line := ht.1.2 (hs (z, x) (List.mem_cons_self ..))
    rw [elsOf_cons, opOf_line hx, List.cons_append, segsFrom,
      ih x y ht.2 (fun w hw => hs w (List.mem_cons_of_mem _ hw)) fun w hw => hf w (List.mem_cons_of_mem _ hw)]
    simp only [List.cons_append, List.zip_cons_cons, List.map_cons]
    rw [wanted_straight (hs (z, x) (List.mem_cons_self ..))]

/-- If the first element is a line, and the path draws what it should, everything is straight. -/
theorem straight_of_drawn (s : F64 × F64) (p : Point PD) (l : List (Point PD)) : ∀ (z x : Point PD) cur, (∀ y ∈ z :: x :: l, Tidy y) →
    TypedFrom z (x :: l) → ((x :: l ++ [p]).map pos64).Nodup →
    segsFrom s cur (elsOf x l p ++ [.closePath]) = ((z :: x :: l).zip (x :: l ++ [p])).map wantedSeg →
    ∀ y ∈ (z :: x :: l).zip (x :: l ++ [p]), StraightSeg y := by
  induction l with
  | nil =>
    intro z x cur hti ht hn h
    have hx : x.ptype = .line := by
      by_contra hx
      rw [elsOf_nil, opOf_curve hx] at h
      simp only [List.cons_append, List.nil_append, segsFrom, List.zip_cons_cons, List.map_cons, List.cons.injEq] at h
      rw [wanted_curved (fun e => hx (ht.1.2 e)) (hti z (List.mem_cons_self ..)) (hti x (by simp))] at h
      have := h.1
      injection this with _ _ _ e
      simp [e] at hn
    rw [elsOf_nil, opOf_line hx] at h
    simp only [List.cons_append, List.nil_append, segsFrom, List.zip_cons_cons, List.zip_nil_right, List.map_cons, List.map_nil,
      List.cons.injEq, List.append_nil] at h
    have hp : StraightSeg (x, p) := by
      apply wanted_line_iff.1
      have h2 := h.2
      split at h2
      · cases h2
      · simp only [List.cons.injEq] at h2
        exact ⟨_, _, h2.1.symm⟩
    intro y hy
    simp only [List.cons_append, List.nil_append, List.zip_cons_cons, List.zip_nil_right, List.mem_cons, List.not_mem_nil, or_false] at hy
    rcases hy with rfl | rfl
    · exact ht.1.1 hx
    · exact hp
  | cons w l ih =>
    intro z x cur hti ht hn h
    have hx : x.ptype = .line := by
      by_contra hx
      rw [elsOf_cons, opOf_curve hx] at h
      simp only [List.cons_append, segsFrom, List.zip_cons_cons, List.map_cons, List.cons.injEq] at h
      rw [wanted_curved (fun e => hx (ht.1.2 e)) (hti z (List.mem_cons_self ..)) (hti x (by simp))] at h
      have := h.1
      injection this with _ _ _ e
      simp [e] at hn
    rw [elsOf_cons, opOf_line hx] at h
    rw [List.cons_append, segsFrom] at h
    have h2 : segsFrom s (pos64 x) (elsOf w l p ++ [.closePath]) = ((x :: w :: l).zip (w :: l ++ [p])).map wantedSeg := by
      have := congrArg List.tail h
      exact this
    have hn' : ((w :: l ++ [p]).map pos64).Nodup := by
      simp only [List.cons_append, List.map_cons, List.nodup_cons] at hn ⊢
      exact hn.2
    intro y hy
    simp only [List.cons_append, List.zip_cons_cons] at hy
    rcases List.mem_cons.1 hy with rfl | hy
    · exact ht.1.1 hx
    · exact ih x w _ (fun v hv => hti v (List.mem_cons_of_mem _ hv)) ht.2 hn' h2 y (by simpa using hy)

/-! ## Curved -/

/-- Curves only. -/
theorem curved_drawn (s : F64 × F64) (p : Point PD) (tl : List PathEl) (l : List (Point PD)) : ∀ x : Point PD, (∀ y ∈ p :: x :: l, Tidy y) →
    x.ptype ≠ .line → TypedFrom x l → (∀ y ∈ (x :: l).zip (l ++ [p]), ¬ StraightSeg y) →
    segsFrom s (pos64 x) (elsOf x l p ++ tl) = ((x :: l).zip (l ++ [p])).map wantedSeg ++ segsFrom s (pos64 p) tl := by
  induction l with
  | nil =>
    intro x hti hx _ hs
    rw [elsOf_nil, opOf_curve hx]
    simp only [List.cons_append, List.nil_append, segsFrom, List.zip_cons_cons, List.zip_nil_right, List.map_cons, List.map_nil]
    rw [wanted_curved (hs (x, p) (List.mem_cons_self ..)) (hti x (by simp)) (hti p (by simp))]
  | cons y l ih =>
    intro x hti hx ht hs
    have hxy := hs (x, y) (List.mem_cons_self ..)
    rw [elsOf_cons, opOf_curve hx, List.cons_append, segsFrom,
      ih y (fun v hv => hti v (by
        rcases List.mem_cons.1 hv with rfl | hv
        · exact List.mem_cons_self ..
        · exact List.mem_cons_of_mem _ (List.mem_cons_of_mem _ hv))) (fun e => hxy (ht.1.1 e)) ht.2
        fun w hw => hs w (List.mem_cons_of_mem _ hw)]
    simp only [List.cons_append, List.zip_cons_cons, List.map_cons]
    rw [wanted_curved hxy (hti x (by simp)) (hti y (by simp))]

/-- If the first element is a curve, and the path draws what it should, everything is curved. -/
theorem curved_of_drawn (s : F64 × F64) (p : Point PD) (tl : List PathEl) (l : List (Point PD)) : ∀ (x : Point PD) cur,
    x.ptype ≠ .line → TypedFrom x l →
    segsFrom s cur (elsOf x l p ++ tl) = ((x :: l).zip (l ++ [p])).map wantedSeg →
    ∀ y ∈ (x :: l).zip (l ++ [p]), ¬ StraightSeg y := by
  induction l with
  | nil =>
    intro x cur hx _ h y hy
    rw [elsOf_nil, opOf_curve hx] at h
    simp only [List.cons_append, List.nil_append, segsFrom, List.zip_cons_cons, List.zip_nil_right, List.map_cons, List.map_nil,
      List.cons.injEq] at h
    simp only [List.nil_append, List.zip_cons_cons, List.zip_nil_right, List.mem_cons, List.not_mem_nil, or_false] at hy
    subst hy
    intro e
    rw [wanted_straight e] at h
    exact nomatch h.1
  | cons w l ih =>
    intro x cur hx ht h y hy
    rw [elsOf_cons, opOf_curve hx, List.cons_append, segsFrom] at h
    simp only [List.cons_append, List.zip_cons_cons, List.map_cons, List.cons.injEq] at h hy
    have hxw : ¬ StraightSeg (x, w) := by
      intro e
      rw [wanted_straight e] at h
      exact nomatch h.1
    rcases List.mem_cons.1 hy with rfl | hy
    · exact hxw
    · exact ih w _ (fun e => hxw (ht.1.1 e)) ht.2 h.2 y hy

/-! ## Closed contours -/

theorem to64_isNaN (x : F32) : x.to64.isNaN = x.isNaN := by
  cases hx : x.isNaN with
  | true =>
    cases x with
    | nan => rfl
    | num => cases hx
  | false =>
    by_contra h
    have e : x.to64 = .nan := by
      cases hy : x.to64 with
      | nan => rfl
      | num => rw [hy] at h; exact absurd rfl h
    have := to32_to64 x
    rw [e] at this
    rw [← this] at hx
    cases hx

theorem mem_pairs_wanted {l m : List (Point PD × Point PD)} (h : m.map wantedSeg = l.map wantedSeg) :
    ((∀ y ∈ m, StraightSeg y) ↔ ∀ y ∈ l, StraightSeg y) ∧ ((∀ y ∈ m, ¬ StraightSeg y) ↔ ∀ y ∈ l, ¬ StraightSeg y) := by
  have key : ∀ {l m : List (Point PD × Point PD)}, m.map wantedSeg = l.map wantedSeg → ∀ y ∈ l, ∃ y' ∈ m, (StraightSeg y' ↔ StraightSeg y) := by
    intro l m h y hy
    have : wantedSeg y ∈ m.map wantedSeg := h ▸ List.mem_map_of_mem hy
    obtain ⟨y', hy', e⟩ := List.mem_map.1 this
    exact ⟨y', hy', by rw [← wanted_line_iff, ← wanted_line_iff, e]⟩
  refine ⟨⟨fun a y hy => ?_, fun a y hy => ?_⟩, ⟨fun a y hy => ?_, fun a y hy => ?_⟩⟩
  · obtain ⟨y', hy', e⟩ := key h y hy; exact e.1 (a y' hy')
  · obtain ⟨y', hy', e⟩ := key h.symm y hy; exact e.1 (a y' hy')
  · obtain ⟨y', hy', e⟩ := key h y hy; exact fun z => a y' hy' (e.2 z)
  · obtain ⟨y', hy', e⟩ := key h.symm y hy; exact fun z => a y' hy' (e.2 z)

/-- The first point of the refigured contour is a curve point if the segment ending in it is a curve. -/
theorem refigure_first_curve {c : Contour PD} (hc : isClosed c = true) {p q : Point PD} {rest : Contour PD}
    (hr : refigure c = p :: q :: rest) (h : ∀ y ∈ closedPairs c, ¬ StraightSeg y) : p.ptype ≠ .line := by
  match c with
  | [] => simp [isClosed, isOpen] at hc
  | [p] => simp [isClosed, isOpen] at hc
  | p0 :: q0 :: rest0 =>
    have hm : p0.ptype ≠ .move := by simpa [isClosed, isOpen] using hc
    rw [C30_result, refigured, if_neg hm] at hr
    injection hr with hr _
    intro e
    rw [← hr] at e
    have e' : typeByHandles (closing (p0 :: q0 :: rest0)) (settle p0.b p0) = .line := e
    unfold typeByHandles at e'
    split at e'
    · rename_i hh
      obtain ⟨z, hz⟩ : ∃ z, (q0 :: rest0).getLast? = some z := by
        cases hz : (q0 :: rest0).getLast? with
        | none => simp at hz
        | some z => exact ⟨z, rfl⟩
      have hmem : (z, p0) ∈ closedPairs (p0 :: q0 :: rest0) := by
        have := zip_getLast? p0 (q0 :: rest0) p0
        rw [List.getLast?_cons_cons, hz] at this
        exact List.mem_of_getLast? this
      refine h _ hmem ⟨?_, hh.2⟩
      have hcl : closing (p0 :: q0 :: rest0) = z.a := by
        unfold closing
        rw [List.getLast?_cons_cons, hz]
      rw [hcl] at hh
      show settle z.a z = _
      rw [hh.1]
      rfl
    · cases e'

/-- What is known of the conversion of a closed contour. -/
theorem closed_setting {c : Contour PD} (hc : isClosed c = true) : ∃ p q rest, refigure c = p :: q :: rest ∧
    (∀ x ∈ p :: q :: rest, Tidy x) ∧ TypedFrom p (q :: rest) ∧
    contourIntoKurbo c = .ok (.moveTo (pos64 p) :: ((if q.ptype = .line then [] else [(opOf (p, q)).pathEl]) ++ elsOf q rest p ++ [.closePath])) ∧
    (closedPairs c).map wantedSeg = ((p :: q :: rest).zip (q :: rest ++ [p])).map wantedSeg := by
  obtain ⟨p, q, rest, hr, -, hk⟩ := kurbo_closed hc
  have hti : ∀ x ∈ p :: q :: rest, Tidy x := hr ▸ refigure_tidy c
  refine ⟨p, q, rest, hr, hti, typedFrom_of _ p hti ?_, ?_, ?_⟩
  · have := C30_types c
    rw [hr] at this
    exact this
  · rw [hk]
    unfold midOps elsOf
    split <;> simp
  · rw [← wanted_refigure_closed, hr]
    rfl

/-- **C107** for closed contours of curves, whatever their points: the path draws the curves of the contour,
each with its control points, in order, and nothing else. -/
theorem C107_curves (p q : Point PD) (rest : Contour PD) (hp : p.ptype ≠ .move) (hx : p.x.isNaN = false) (hy : p.y.isNaN = false)
    (h : ∀ y ∈ closedPairs (p :: q :: rest), ¬ StraightSeg y) :
    ∃ els, contourIntoKurbo (p :: q :: rest) = .ok els ∧ DrawsClosed (p :: q :: rest) els := by
  have hc := closed_of p q rest hp
  obtain ⟨p', q', rest', hr, hti, ht, hk, hw⟩ := closed_setting hc
  refine ⟨_, hk, ?_⟩
  have hpos : pos64 p' = pos64 p := by
    have := refigure_pos (p :: q :: rest)
    rw [hr] at this
    simpa using (List.cons.inj this).1
  have hp' := refigure_first_curve hc hr h
  have h' := (mem_pairs_wanted hw).2.1 h
  have hq' : q'.ptype ≠ .line := fun e => h' (p', q') (List.mem_cons_self ..) (ht.1.1 e)
  unfold DrawsClosed
  rw [if_neg hq', hw]
  simp only [drawnBy, Option.some.injEq]
  have : [(opOf (p', q')).pathEl] ++ elsOf q' rest' p' ++ [PathEl.closePath] = elsOf p' (q' :: rest') p' ++ [.closePath] := rfl
  rw [this, curved_drawn _ p' _ (q' :: rest') p' (fun y hy => by
    rcases List.mem_cons.1 hy with rfl | hy
    · exact hti _ (List.mem_cons_self ..)
    · exact hti y hy) hp' ht h']
  have hs : samePlace (pos64 p') (pos64 p') = true := by
    rw [hpos]
    unfold samePlace pos64
    rw [feq_refl (by rw [to64_isNaN]; exact hx), feq_refl (by rw [to64_isNaN]; exact hy)]
    rfl
  simp [segsFrom, hs]

/-- **C107** for closed contours of lines: the path draws the lines of the contour and nothing else. -/
theorem C107_lines (p q : Point PD) (rest : Contour PD) (hp : p.ptype ≠ .move)
    (hd : ∀ y ∈ q :: rest, samePlace (pos64 y) (pos64 p) = false)
    (h : ∀ y ∈ closedPairs (p :: q :: rest), StraightSeg y) :
    ∃ els, contourIntoKurbo (p :: q :: rest) = .ok els ∧ DrawsClosed (p :: q :: rest) els := by
  have hc := closed_of p q rest hp
  obtain ⟨p', q', rest', hr, hti, ht, hk, hw⟩ := closed_setting hc
  refine ⟨_, hk, ?_⟩
  have hpos := refigure_pos (p :: q :: rest)
  rw [hr] at hpos
  have h' := (mem_pairs_wanted hw).1.1 h
  have hq' : q'.ptype = .line := ht.1.2 (h' (p', q') (List.mem_cons_self ..))
  unfold DrawsClosed
  rw [if_pos hq', hw, List.nil_append]
  simp only [drawnBy, Option.some.injEq]
  refine straight_drawn p' rest' p' q' ht h' fun y hy => ?_
  simp only [List.map_cons, List.cons.injEq] at hpos
  rw [hpos.1]
  have : pos64 y ∈ (q :: rest).map pos64 := by
    rw [List.map_cons, ← hpos.2.1, ← hpos.2.2]
    exact List.mem_map_of_mem hy
  obtain ⟨y', hy', e⟩ := List.mem_map.1 this
  rw [← e]
  exact hd y' hy'

/-- **C107** for closed contours whose points are in different places, exactly: the path draws the segments
of the contour if and only if they are all curves or all lines.  A contour with both is drawn differently. -/
theorem C107_closed_exact (p q : Point PD) (rest : Contour PD) (hp : p.ptype ≠ .move) (hx : p.x.isNaN = false) (hy : p.y.isNaN = false)
    (hd : ∀ y ∈ q :: rest, samePlace (pos64 y) (pos64 p) = false) (hn : ((p :: q :: rest).map pos64).Nodup) :
    ∃ els, contourIntoKurbo (p :: q :: rest) = .ok els ∧
      (DrawsClosed (p :: q :: rest) els ↔
        (∀ y ∈ closedPairs (p :: q :: rest), ¬ StraightSeg y) ∨ ∀ y ∈ closedPairs (p :: q :: rest), StraightSeg y) := by
  have hc := closed_of p q rest hp
  obtain ⟨p', q', rest', hr, hti, ht, hk, hw⟩ := closed_setting hc
  refine ⟨_, hk, ?_, ?_⟩
  · intro h
    unfold DrawsClosed at h
    rw [hw] at h
    simp only [drawnBy, Option.some.injEq] at h
    have hn' : ((p' :: q' :: rest').map pos64).Nodup := by
      rw [← hr, refigure_pos]; exact hn
    by_cases hq' : q'.ptype = .line
    · right
      rw [if_pos hq', List.nil_append] at h
      refine (mem_pairs_wanted hw).1.2 (straight_of_drawn _ p' rest' p' q' _ hti ht ?_ h)
      rw [List.map_append]
      simp only [List.map_cons, List.nodup_cons] at hn'
      rw [List.nodup_append]
      refine ⟨List.nodup_cons.2 hn'.2, by simp, ?_⟩
      intro a ha b hb e
      have hb' : b = pos64 p' := by simpa using hb
      rw [e, hb'] at ha
      exact hn'.1 ha
    · left
      rw [if_neg hq'] at h
      have e : [(opOf (p', q')).pathEl] ++ elsOf q' rest' p' ++ [PathEl.closePath] = elsOf p' (q' :: rest') p' ++ [.closePath] := rfl
      rw [e] at h
      have hp' : p'.ptype ≠ .line := by
        intro hl
        rw [elsOf_cons, opOf_line hl, List.cons_append, segsFrom] at h
        simp only [List.cons_append, List.zip_cons_cons, List.map_cons, List.cons.injEq] at h
        exact hq' (ht.1.2 (wanted_line_iff.1 ⟨_, _, h.1.symm⟩))
      exact (mem_pairs_wanted hw).2.2 (curved_of_drawn _ p' _ (q' :: rest') p' _ hp' ht h)
  · rintro (h | h)
    · obtain ⟨els, h1, h2⟩ := C107_curves p q rest hp hx hy h
      rw [hk] at h1; cases h1; exact h2
    · obtain ⟨els, h1, h2⟩ := C107_lines p q rest hp hd h
      rw [hk] at h1; cases h1; exact h2

/-- C107 as stated is false: a closed contour of a curve and two lines is drawn with a curve where there
is a line, and a line where there is the curve. -/
theorem C107_false : ∃ (c : Contour Unit) (els : List PathEl), isClosed c = true ∧ c.length = 3 ∧
    contourIntoKurbo c = .ok els ∧ ¬ DrawsClosed c els ∧
    (closedPairs c).map (fun x => decide (StraightSeg x)) = [false, true, true] ∧
    (drawnBy els).map (List.map fun s => match s with | .line _ _ => true | _ => false) = some [true, false, true, true] := by
  have h : ∃ c : Contour Unit, c = [Sample.pt .line 0 0, Sample.cv 10 0 10 0 5 5, Sample.pt .line 10 10] ∧
      ∃ els, els = [PathEl.moveTo (pos64 (Sample.pt .line 0 0)), .lineTo (pos64 (Sample.pt .line 0 0)),
        .curveTo (pos64 (Sample.pt .line 10 0)) (pos64 (Sample.pt .line 10 10)) (pos64 (Sample.pt .line 10 10)),
        .lineTo (pos64 (Sample.pt .line 10 10)), .closePath] ∧
      isClosed c = true ∧ c.length = 3 ∧ contourIntoKurbo c = .ok els ∧ ¬ DrawsClosed c els ∧
      (closedPairs c).map (fun x => decide (StraightSeg x)) = [false, true, true] ∧
      (drawnBy els).map (List.map fun s => match s with | .line _ _ => true | _ => false) = some [true, false, true, true] := by
    refine ⟨_, rfl, _, rfl, ?_⟩
    decide +kernel
  obtain ⟨c, -, els, -, h⟩ := h
  exact ⟨c, els, h⟩

/-! ## Open contours -/

/-- **C107** for open contours whose points are in different places, exactly: the path draws the segments of
the contour if and only if there is only one, and it is a curve. -/
theorem C107_open_exact (p q : Point PD) (rest : Contour PD) (hp : p.ptype = .move) (hn : ((p :: q :: rest).map pos64).Nodup) :
    ∃ els, contourIntoKurbo (p :: q :: rest) = .ok els ∧
      (DrawsOpen (p :: q :: rest) els ↔ rest = [] ∧ ¬ StraightSeg (p, q)) := by
  obtain ⟨p', q', rest', hr, hm, hl, hlen, hq⟩ := refigure_open (q := q) (rest := rest) hp
  have ho : isOpen (p :: q :: rest) = true := by simp [isOpen, hp]
  have hk : contourIntoKurbo (p :: q :: rest) = .ok
      (((if q'.ptype = PointType.line then [] else [PenOp.moveTo (.ofPoint p')]) ++ tailOps p' (q' :: rest')).map PenOp.pathEl) := by
    unfold contourIntoKurbo
    rw [intoPenOperations_open ho hr hm hl, Out.bind_ok]
  refine ⟨_, hk, ?_⟩
  have hti : ∀ x ∈ p' :: q' :: rest', Tidy x := hr ▸ refigure_tidy _
  have ht : TypedFrom p' (q' :: rest') := typedFrom_of _ p' hti (by
    have := C30_types (p :: q :: rest)
    rw [hr] at this
    exact this)
  have hn' : ((p' :: q' :: rest').map pos64).Nodup := by rw [← hr, refigure_pos]; exact hn
  unfold DrawsOpen
  rw [← wanted_refigure_open, hr]
  have hst : q'.ptype = .line ↔ StraightSeg (p, q) := hq
  rw [← hst]
  by_cases hq' : q'.ptype = .line
  · rw [if_pos hq', List.nil_append]
    have : drawnBy ((tailOps p' (q' :: rest')).map PenOp.pathEl) = none := by
      cases rest' with
      | nil => simp [tailOps, hq', PenOp.pathEl, drawnBy]
      | cons y l => rw [tailOps, List.map_cons, opOf_line hq']; rfl
    rw [this]
    simp [hq']
  · rw [if_neg hq']
    have hs : ¬ StraightSeg (p', q') := fun e => hq' (ht.1.2 e)
    have e0 : (PenOp.moveTo (GlifPoint.ofPoint p')).pathEl = .moveTo (pos64 p') := rfl
    cases rest' with
    | nil =>
      have hrest : rest = [] := List.eq_nil_of_length_eq_zero (by rw [← hlen]; rfl)
      simp only [hrest, hq', true_and, not_false_iff, iff_true, tailOps, if_false, List.cons_append, List.nil_append, List.map_cons,
        List.map_nil, drawnBy, openPairs, List.tail_cons, List.zip_cons_cons, List.zip_nil_right, PenOp.pathEl, kpoint_A, kpoint_B,
        segsFrom]
      rw [wanted_curved hs (hti p' (by simp)) (hti q' (by simp))]
      rfl
    | cons y l =>
      have hrest : rest ≠ [] := by rintro rfl; simp at hlen
      simp only [hrest, false_and, iff_false]
      intro h
      rw [tailOps, List.map_append, List.map_cons, List.map_nil, e0, List.cons_append, List.nil_append, List.map_cons, opOf_curve hq'] at h
      simp only [drawnBy, segsFrom, openPairs, List.tail_cons, List.zip_cons_cons, List.map_cons, Option.some.injEq, List.cons.injEq] at h
      rw [wanted_curved hs (hti p' (by simp)) (hti q' (by simp))] at h
      have e := h.1
      injection e with _ _ _ e
      simp [e] at hn'

/-! ## Contours that meet the hypotheses -/

/-- A closed contour of three curves. -/
example : (Sample.cv 0 0 1 1 2 2 : Point Unit).ptype ≠ .move ∧
    (∀ y ∈ closedPairs ([Sample.cv 0 0 1 1 2 2, Sample.cv 10 0 11 1 12 2, Sample.cv 10 10 11 11 12 12] : Contour Unit), ¬ StraightSeg y) ∧
    ((([Sample.cv 0 0 1 1 2 2, Sample.cv 10 0 11 1 12 2, Sample.cv 10 10 11 11 12 12] : Contour Unit)).map pos64).Nodup := by
  decide +kernel

/-- A triangle. -/
example : (∀ y ∈ closedPairs ([Sample.pt .line 0 0, Sample.pt .line 10 0, Sample.pt .line 10 10] : Contour Unit), StraightSeg y) ∧
    ∀ y ∈ ([Sample.pt .line 10 0, Sample.pt .line 10 10] : Contour Unit), samePlace (pos64 y) (pos64 (Sample.pt .line 0 0 : Point Unit)) = false := by
  decide +kernel

/-- Its path, and what that draws. -/
example : (match contourIntoKurbo ([Sample.pt .line 0 0, Sample.pt .line 10 0, Sample.pt .line 10 10] : Contour Unit) with
    | .ok els => (drawnBy els).map List.length
    | _ => none) = some 3 := by decide +kernel

/-- An open contour of one curve, and one of two lines. -/
example : ¬ StraightSeg ((Sample.pt .move 0 0 : Point Unit), Sample.cv 10 0 11 1 12 2) ∧
    (([Sample.pt .move 0 0, Sample.pt .line 10 0, Sample.pt .line 10 10] : Contour Unit).map pos64).Nodup := by
  decide +kernel

end GP
