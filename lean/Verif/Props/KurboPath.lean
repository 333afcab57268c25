import Verif.Props.PenOps
import Verif.Props.KurboDraw
import Verif.Props.SkiaStrokes
import Verif.Spec.KurboPath
/-!
# What outlines from kurbo paths draw (C117)
-/
open Fl
namespace GP
variable {PD : Type}
open Spec

/-! ## Single precision -/

theorem to64_feq (x y : F32) : x.to64.feq y.to64 = x.feq y := by
  cases x with
  | nan => rfl
  | num s k h =>
    cases y with
    | nan =>
      show (F32.to64 _).feq Flt.nan = _
      cases F32.to64 (Flt.num s k h) <;> rfl
    | num s' k' h' =>
      have form : ∀ (s : Bool) (k : Nat) (h : k ≤ b32.inf), ∃ j hj, ∀ s', F32.to64 (.num s' k h) = .num s' j hj := by
        intro s k h
        by_cases hk : k = b32.inf
        · exact ⟨b64.inf, le_refl _, fun s' => by simp [F32.to64, Flt.cast, hk, Flt.infinity]⟩
        · exact ⟨_, _, fun s' => by simp only [F32.to64, Flt.cast, hk, if_false, Flt.ofFrac]; rfl⟩
      obtain ⟨j, hj, e⟩ := form s k h
      obtain ⟨j', hj', e'⟩ := form s' k' h'
      rw [e, e']
      simp only [Flt.feq]
      have h1 : (j == j') = (k == k') := by
        rw [Bool.eq_iff_iff, beq_iff_eq, beq_iff_eq]
        constructor
        · rintro rfl
          have := (to32_to64 (.num s k h)).symm.trans ((congrArg _ ((e s).trans (e' s).symm)).trans (to32_to64 (.num s k' h')))
          simpa using this
        · rintro rfl
          have := (e s).symm.trans (e' s)
          simpa using this
      have h2 : (j == 0) = (k == 0) := by
        obtain ⟨j0, hj0, e0⟩ := form false 0 (Nat.zero_le _)
        have z : j0 = 0 := by
          have h0 : F32.to64 (.num false 0 (Nat.zero_le _)) = .num false 0 (Nat.zero_le _) := by decide +kernel
          have := (e0 false).symm.trans h0
          simpa using this
        subst z
        rw [Bool.eq_iff_iff, beq_iff_eq, beq_iff_eq]
        constructor
        · rintro rfl
          have := (to32_to64 (.num false k h)).symm.trans ((congrArg _ ((e false).trans (e0 false).symm)).trans (to32_to64 (.num false 0 (Nat.zero_le _))))
          simpa using this
        · rintro rfl
          have := (e false).symm.trans (e0 false)
          simpa using this
      rw [h1, h2]

theorem placeSingle_inSingle (p : F64 × F64) : placeSingle (inSingle p) = placeSingle p := by
  unfold placeSingle inSingle
  rw [to32_to64, to32_to64]

theorem samePlace_inSingle (p q : F64 × F64) : samePlace (inSingle p) (inSingle q) = (p.1.to32.feq q.1.to32 && p.2.to32.feq q.2.to32) := by
  unfold samePlace inSingle
  rw [to64_feq, to64_feq]

theorem placeSingle_same {p q : F64 × F64} (h : samePlace (inSingle p) (inSingle q) = true) : placeSingle p = placeSingle q := by
  rw [samePlace_inSingle, Bool.and_eq_true] at h
  exact unsignedPt_of_feq (p := (p.1.to32, p.2.to32)) (q := (q.1.to32, q.2.to32)) h.1 h.2

/-! ## The points of a subpath -/

/-- The handle towards the next line or curve; `fin` is that of the last point. -/
def outHandle (fin : Handle) : List KSeg → Handle
  | [] => fin
  | .line _ :: _ => .colocated
  | .cubic c _ _ :: _ => .at c.1.to32 c.2.to32

/-- The points in which lines and curves end. -/
def kPoints (fin : Handle) : List KSeg → Contour PD
  | [] => []
  | .line p :: l => { x := p.1.to32, y := p.2.to32, a := outHandle fin l, ptype := if outHandle fin l = .colocated then .line else .curve } :: kPoints fin l
  | .cubic _ d p :: l => { x := p.1.to32, y := p.2.to32, a := outHandle fin l, b := .at d.1.to32 d.2.to32, ptype := .curve } :: kPoints fin l

/-- The handle that the points of an element give to the point before. -/
def nextHandle : List GlifPoint → Handle
  | [_, _, q] => .at q.x.toF32 q.y.toF32
  | _ => .colocated

theorem nextHandle_seg (g : KSeg) (l : List KSeg) (fin : Handle) : nextHandle g.el.penOp.points = outHandle fin (g :: l) := by
  cases g <;> rfl

theorem penPoint_seg (g : KSeg) (l : List KSeg) (fin : Handle) (next : List GlifPoint) (h : nextHandle next = outHandle fin l) :
    (penPoint g.el.penOp next : R (Contour PD)) = .ok ((kPoints fin (g :: l)).take 1) := by
  cases g with
  | line p =>
    simp only [kPoints, ← h, List.take_succ_cons, List.take_zero]
    simp only [KSeg.el, PathEl.penOp, penPoint, PenOp.points, PenOp.ptype, GlifPoint.ofKurbo, GlifPoint.fromXYType, IOF.ofF32, IOF.toF32]
    match next with
    | [] => rfl
    | [_] => rfl
    | [_, _] => rfl
    | [_, _, _] => rfl
    | _ :: _ :: _ :: _ :: _ => rfl
  | cubic c d p =>
    simp only [kPoints, ← h, List.take_succ_cons, List.take_zero]
    simp only [KSeg.el, PathEl.penOp, penPoint, PenOp.points, PenOp.ptype, GlifPoint.ofKurbo, GlifPoint.fromXYType, IOF.ofF32, IOF.toF32]
    match next with
    | [] => rfl
    | [_] => rfl
    | [_, _] => rfl
    | [_, _, _] => rfl
    | _ :: _ :: _ :: _ :: _ => rfl

theorem kPoints_cons (fin : Handle) (g : KSeg) (l : List KSeg) : (kPoints fin (g :: l) : Contour PD) = (kPoints fin (g :: l)).take 1 ++ kPoints fin l := by
  cases g <;> rfl

theorem penPoints_segs (first : PenOp) (l : List KSeg) :
    (penPoints first (l.map fun g => g.el.penOp) : R (Contour PD)) = .ok (kPoints (nextHandle first.points) l) := by
  induction l with
  | nil => rfl
  | cons g l ih =>
    cases l with
    | nil =>
      rw [List.map_cons, List.map_nil, penPoints, penPoint_seg g [] _ _ rfl]
      cases g <;> rfl
    | cons h l =>
      rw [List.map_cons, List.map_cons, penPoints, penPoint_seg g (h :: l) _ _ (nextHandle_seg h l _), Out.bind_ok]
      rw [List.map_cons] at ih
      rw [ih, Out.bind_ok, ← kPoints_cons]

/-- The first point of a subpath. -/
def kFirst (c : KSub) : Point PD :=
  let h := Handle.at c.start.1.to32 c.start.2.to32
  if c.closed then { x := c.start.1.to32, y := c.start.2.to32, a := outHandle h c.segs, b := h, ptype := .curve }
  else { x := c.start.1.to32, y := c.start.2.to32, ptype := .move }

/-- The handle of the last point. -/
def kFin (c : KSub) : Handle := if c.closed then .at c.start.1.to32 c.start.2.to32 else .colocated

/-- The operations of a subpath, as they are split off. -/
def KSub.ops (c : KSub) : List PenOp :=
  let m := GlifPoint.ofKurbo c.start .move
  (if c.closed then PenOp.curveTo m m m else .moveTo m) :: c.segs.map fun g => g.el.penOp

theorem penContour_sub (c : KSub) : (penContour (KSub.ops c) : R (Contour PD)) = .ok (mergeEnds (kFirst c :: kPoints (kFin c) c.segs)) := by
  obtain ⟨m, segs, closed⟩ := c
  have key : ∀ (first : PenOp) (p : Point PD), (penPoint first (match segs with | [] => first.points | g :: _ => g.el.penOp.points)) = .ok [p] →
      (penContour (first :: segs.map fun g => g.el.penOp) : R (Contour PD)) = .ok (mergeEnds (p :: kPoints (nextHandle first.points) segs)) := by
    intro first p h
    simp only [penContour]
    have : (penPoints first (first :: segs.map fun g => g.el.penOp) : R (Contour PD)) = .ok (p :: kPoints (nextHandle first.points) segs) := by
      cases segs with
      | nil => exact h
      | cons g l =>
        have hp := penPoints_segs (PD := PD) first (g :: l)
        rw [List.map_cons] at hp ⊢
        rw [penPoints, h, hp]
        rfl
    rw [this]
    rfl
  cases closed with
  | true =>
    refine key (.curveTo _ _ _) _ ?_
    cases segs with
    | nil => rfl
    | cons g l => cases g <;> rfl
  | false => exact key (.moveTo _) _ rfl

/-! ## Splitting -/

theorem splitLoop_segs (segs : List KSeg) (rest : List PenOp) : ∀ (ko : List (List PenOp)) (kc : List PenOp),
    splitLoop ko kc (segs.map (fun g => g.el.penOp) ++ rest) = splitLoop ko (kc ++ segs.map fun g => g.el.penOp) rest := by
  induction segs with
  | nil => intro ko kc; simp
  | cons g l ih =>
    intro ko kc
    have : splitLoop ko kc (g.el.penOp :: (l.map (fun g => g.el.penOp) ++ rest)) =
        splitLoop ko (kc ++ [g.el.penOp]) (l.map (fun g => g.el.penOp) ++ rest) := by
      cases g <;> rfl
    rw [List.map_cons, List.cons_append, this, ih, List.append_assoc]
    rfl

theorem splitLoop_sub (c : KSub) (rest : List PenOp) (ko : List (List PenOp)) (kc : List PenOp) :
    splitLoop ko kc (c.els.map PathEl.penOp ++ rest) = splitLoop (if kc.isEmpty then ko else ko ++ [kc]) (KSub.ops c) rest := by
  obtain ⟨m, segs, closed⟩ := c
  have e : (KSub.els ⟨m, segs, closed⟩).map PathEl.penOp ++ rest =
      .moveTo (.ofKurbo m .move) :: (segs.map (fun g => g.el.penOp) ++ ((if closed then [PenOp.close] else []) ++ rest)) := by
    cases closed <;> simp [KSub.els, PathEl.penOp, Function.comp_def]
  rw [e, splitLoop, splitLoop_segs]
  cases closed with
  | true => simp only [if_true, List.singleton_append, splitLoop]; rfl
  | false => rfl

theorem splitLoop_subs (cs : List KSub) : ∀ (ko : List (List PenOp)) (kc : List PenOp), ∃ ko' kc',
    splitLoop ko kc ((cs.flatMap KSub.els).map PathEl.penOp) = .ok (ko', kc') ∧
      (if kc'.isEmpty then ko' else ko' ++ [kc']) = (if kc.isEmpty then ko else ko ++ [kc]) ++ cs.map KSub.ops := by
  induction cs with
  | nil => intro ko kc; exact ⟨ko, kc, rfl, by simp⟩
  | cons c cs ih =>
    intro ko kc
    rw [List.flatMap_cons, List.map_append, splitLoop_sub]
    obtain ⟨ko', kc', h1, h2⟩ := ih (if kc.isEmpty then ko else ko ++ [kc]) (KSub.ops c)
    refine ⟨ko', kc', h1, ?_⟩
    rw [h2]
    have : (KSub.ops c).isEmpty = false := rfl
    rw [this]
    simp

theorem outlineFromKurbo_subs (cs : List KSub) (h : 2 ≤ (cs.flatMap KSub.els).length) :
    (outlineFromKurbo (cs.flatMap KSub.els) : R (Outline PD)) = .ok (cs.map fun c => mergeEnds (kFirst c :: kPoints (kFin c) c.segs)) := by
  unfold outlineFromKurbo splitPenOperations
  rw [List.length_map, if_neg (by omega)]
  obtain ⟨ko', kc', h1, h2⟩ := splitLoop_subs cs [] []
  rw [h1]
  simp only [Out.bind_ok, h2]
  simp only [List.isEmpty_nil, if_true, List.nil_append, penOutline]
  clear h h1 h2
  induction cs with
  | nil => rfl
  | cons c cs ih => rw [List.map_cons, Out.mapM'_cons, penContour_sub, Out.bind_ok, ih]; rfl

/-! ## What the points draw -/

/-- The place of the handle towards the next line or curve, as it should be. -/
def GoodOut (p : Point PD) (cur : F64 × F64) : List KSeg → Prop
  | [] => True
  | .line _ :: _ => unsignedPt (outPos p) = placeSingle cur
  | .cubic c _ _ :: _ => unsignedPt (outPos p) = placeSingle c

theorem goodOut_handle {p : Point PD} {cur : F64 × F64} {l : List KSeg} {fin : Handle} (ha : p.a = outHandle fin l)
    (hp : unsignedPt (p.x, p.y) = placeSingle cur) : GoodOut p cur l := by
  cases l with
  | nil => trivial
  | cons g l =>
    cases g with
    | line q =>
      unfold GoodOut outPos
      rw [ha]
      exact hp
    | cubic c d q =>
      unfold GoodOut outPos
      rw [ha]
      rfl

theorem drawsSeg_line {s : Poly} {a b : F64 × F64} (h1 : unsignedPt s.1 = placeSingle a) (h2 : unsignedPt s.2.1 = placeSingle a)
    (h3 : unsignedPt s.2.2.1 = placeSingle b) (h4 : unsignedPt s.2.2.2 = placeSingle b) : DrawsSeg s (.line (inSingle a) (inSingle b)) := by
  simp only [DrawsSeg]
  rw [placeSingle_inSingle, placeSingle_inSingle, unsigned_eq]
  exact ⟨h1, .inl h2, .inr h3, h4⟩

theorem drawsSeg_cubic {s : Poly} {a c d b : F64 × F64} : DrawsSeg s (.cubic (inSingle a) (inSingle c) (inSingle d) (inSingle b)) ↔
    unsignedPt s.1 = placeSingle a ∧ unsignedPt s.2.1 = placeSingle c ∧ unsignedPt s.2.2.1 = placeSingle d ∧ unsignedPt s.2.2.2 = placeSingle b := by
  simp only [DrawsSeg]
  rw [placeSingle_inSingle, placeSingle_inSingle, placeSingle_inSingle, placeSingle_inSingle, unsigned_eq]
  simp only [Prod.mk.injEq]

/-- The lines and curves as they should be drawn, without the one that closes. -/
def segsOnly (cur : F64 × F64) : List KSeg → List PathSeg
  | [] => []
  | .line p :: l => .line (inSingle cur) (inSingle p) :: segsOnly p l
  | .cubic c d p :: l => .cubic (inSingle cur) (inSingle c) (inSingle d) (inSingle p) :: segsOnly p l

theorem segsOnly_length (l : List KSeg) : ∀ cur, (segsOnly cur l).length = l.length := by
  induction l with
  | nil => intro; rfl
  | cons g l ih => intro cur; cases g <;> simp [segsOnly, ih]

theorem kPoints_length (fin : Handle) (l : List KSeg) : (kPoints fin l : Contour PD).length = l.length := by
  induction l with
  | nil => rfl
  | cons g l ih => cases g <;> simp [kPoints, ih]

theorem segsFrom_segs (start : F64 × F64) (rest : List PathEl) (l : List KSeg) : ∀ cur,
    segsFrom (inSingle start) (inSingle cur) ((l.map KSeg.el).map elInSingle ++ rest) =
      segsOnly cur l ++ segsFrom (inSingle start) (inSingle ((l.map KSeg.stop).getLastD cur)) rest := by
  induction l with
  | nil => intro cur; rfl
  | cons g l ih =>
    intro cur
    rw [List.map_cons, List.map_cons, List.map_cons, List.getLastD_cons]
    cases g with
    | line p => exact congrArg _ (ih p)
    | cubic c d p => exact congrArg _ (ih p)

/-- What a subpath draws. -/
theorem drawnBy_sub (c : KSub) : drawnBy (c.els.map elInSingle) = some (segsOnly c.start c.segs ++
    if c.closed = true ∧ samePlace (inSingle c.stop) (inSingle c.start) = false then [.line (inSingle c.stop) (inSingle c.start)] else []) := by
  obtain ⟨m, segs, closed⟩ := c
  unfold KSub.els
  rw [List.map_cons, List.map_append]
  simp only [elInSingle, drawnBy]
  rw [segsFrom_segs]
  cases closed with
  | false => rfl
  | true =>
    simp only [if_true, List.map_cons, List.map_nil, elInSingle, segsFrom, List.append_nil, true_and]
    unfold KSub.stop
    simp only
    congr 2
    cases samePlace (inSingle ((segs.map KSeg.stop).getLastD m)) (inSingle m) <;> rfl

/-- The segments between the points of a subpath draw its lines and curves. -/
theorem kPoints_draw (fin : Handle) (l : List KSeg) : ∀ (p : Point PD) (cur : F64 × F64), unsignedPt (p.x, p.y) = placeSingle cur →
    GoodOut p cur l → List.Forall₂ (fun x g => DrawsSeg (polygon x) g) ((p :: kPoints fin l).zip (kPoints fin l)) (segsOnly cur l) := by
  induction l with
  | nil => intro p cur _ _; exact .nil
  | cons g l ih =>
    intro p cur hp ho
    cases g with
    | line q =>
      refine .cons ?_ (ih _ q rfl (goodOut_handle rfl rfl))
      generalize (if outHandle fin l = .colocated then PointType.line else .curve) = t
      unfold polygon
      split
      · exact drawsSeg_line hp ho rfl rfl
      · exact drawsSeg_line hp hp rfl rfl
    | cubic c d q =>
      refine .cons ?_ (ih _ q rfl (goodOut_handle rfl rfl))
      unfold polygon
      rw [if_pos rfl]
      exact drawsSeg_cubic.2 ⟨hp, ho, rfl, rfl⟩

theorem mergeEnds_concat (first : Point PD) (mid : Contour PD) (last : Point PD) :
    mergeEnds (first :: (mid ++ [last])) =
      if last.x.feq first.x && last.y.feq first.y then { first with b := last.b } :: mid else first :: (mid ++ [last]) := by
  have e : mid ++ [last] = (mid ++ [last]).head (by simp) :: (mid ++ [last]).tail := (List.cons_head_tail _).symm
  rw [e, mergeEnds, ← e]
  simp only [List.getLast?_append, List.getLast?_singleton, Option.some_or, List.dropLast_concat]

/-- The last point of a subpath. -/
theorem kPoints_last (fin : Handle) (l : List KSeg) (hl : l ≠ []) (z : F64 × F64) : ∃ (mid : Contour PD) (last : Point PD), kPoints fin l = mid ++ [last] ∧
    last.x = ((l.map KSeg.stop).getLastD z).1.to32 ∧ last.y = ((l.map KSeg.stop).getLastD z).2.to32 ∧ last.a = fin ∧
    (fin ≠ .colocated → last.ptype = .curve) := by
  induction l generalizing z with
  | nil => exact absurd rfl hl
  | cons g l ih =>
    rw [List.map_cons, List.getLastD_cons]
    by_cases h : l = []
    · subst h
      cases g with
      | line p => exact ⟨[], _, rfl, rfl, rfl, rfl, fun hf => if_neg hf⟩
      | cubic c d p => exact ⟨[], _, rfl, rfl, rfl, rfl, fun _ => rfl⟩
    · obtain ⟨mid, last, h1, h2⟩ := ih h g.stop
      refine ⟨(kPoints fin (g :: l)).take 1 ++ mid, last, ?_, h2⟩
      rw [List.append_assoc, ← h1, ← kPoints_cons]

/-- Only the control polygons matter. -/
theorem forall₂_draws {l m : List (Point PD × Point PD)} {segs : List PathSeg} (e : l.map (fun x => (polygon x).unsigned) = m.map fun x => (polygon x).unsigned)
    (h : List.Forall₂ (fun x g => DrawsSeg (polygon x) g) l segs) : List.Forall₂ (fun x g => DrawsSeg (polygon x) g) m segs := by
  induction h generalizing m with
  | nil =>
    cases m with
    | nil => exact .nil
    | cons => cases e
  | @cons x g l segs hx _ ih =>
    cases m with
    | nil => cases e
    | cons y m =>
      rw [List.map_cons, List.map_cons, List.cons.injEq] at e
      refine .cons ?_ (ih e.2)
      cases g <;> unfold DrawsSeg at hx ⊢ <;> first | exact hx | (rw [← e.1]; exact hx)

/-- What matters of the two ends of a curve. -/
theorem polygon_ends {p p' q q' : Point PD} (e1 : p.x = p'.x) (e2 : p.y = p'.y) (e3 : p.a = p'.a) (hq : q.ptype = .curve)
    (hq' : q'.ptype = .curve) (hb : q.b = q'.b) (hp : unsignedPt (q.x, q.y) = unsignedPt (q'.x, q'.y)) :
    (polygon (p, q)).unsigned = (polygon (p', q')).unsigned := by
  have h1 : outPos p = outPos p' := by
    unfold outPos
    rw [e1, e2, e3]
  have h2 : unsignedPt (inPos q) = unsignedPt (inPos q') := by
    unfold inPos
    rw [hb]
    cases q'.b with
    | colocated => exact hp
    | «at» x y => rfl
  rw [unsigned_eq, unsigned_eq]
  unfold polygon
  simp only [hq, hq', if_true, segment, e1, e2, h1, h2, hp]

theorem closed_sub (c : KSub) (hc : c.closed = true) (hs : c.segs ≠ []) :
    DrawsSub c (mergeEnds (kFirst c :: kPoints (kFin c) c.segs) : Contour PD) := by
  obtain ⟨mid, last, h1, h2, h3, h4, h5⟩ := kPoints_last (PD := PD) (kFin c) c.segs hs c.start
  have hfin : kFin c = .at c.start.1.to32 c.start.2.to32 := by unfold kFin; rw [if_pos hc]
  have hfirst : (kFirst c : Point PD) = { x := c.start.1.to32, y := c.start.2.to32, a := outHandle (kFin c) c.segs, b := kFin c, ptype := .curve } := by
    unfold kFirst
    rw [hfin, if_pos hc]
  have hcur : last.ptype = .curve := h5 (by rw [hfin]; simp)
  have hd := kPoints_draw (PD := PD) (kFin c) c.segs (kFirst c) c.start (by rw [hfirst]; rfl) (goodOut_handle (fin := kFin c) (by rw [hfirst]) (by rw [hfirst]; rfl))
  have hsame : samePlace (inSingle c.stop) (inSingle c.start) = (last.x.feq (kFirst c : Point PD).x && last.y.feq (kFirst c : Point PD).y) := by
    rw [samePlace_inSingle, h2, h3, hfirst]
    rfl
  rw [h1] at hd ⊢
  rw [mergeEnds_concat, ← hsame]
  unfold DrawsSub
  rw [hc, if_pos rfl, drawnBy_sub, hc]
  simp only [true_and]
  cases hm : samePlace (inSingle c.stop) (inSingle c.start) with
  | true =>
    rw [if_pos rfl]
    refine ⟨by rw [hfirst]; rfl, _, rfl, ?_⟩
    rw [if_neg (by simp), List.append_nil]
    refine forall₂_draws ?_ hd
    rw [closedPairs_any]
    have hz : (kFirst c :: (mid ++ [last])).zip (mid ++ [last]) = (kFirst c :: mid).zip mid ++ [(mid.getLastD (kFirst c), last)] := by
      generalize (kFirst c : Point PD) = f
      clear hd h1
      induction mid generalizing f with
      | nil => rfl
      | cons q mid ih => rw [List.cons_append, List.zip_cons_cons, ih, List.zip_cons_cons, List.getLastD_cons]; rfl
    rw [hz]
    have hpl : unsignedPt (last.x, last.y) = unsignedPt ((kFirst c : Point PD).x, (kFirst c : Point PD).y) := by
      rw [hm, eq_comm, Bool.and_eq_true] at hsame
      exact unsignedPt_of_feq hsame.1 hsame.2
    have hb : ∀ f' : Point PD, f'.x = (kFirst c : Point PD).x → f'.y = (kFirst c : Point PD).y → f'.a = (kFirst c : Point PD).a →
        (mid.getLastD f').x = (mid.getLastD (kFirst c : Point PD)).x ∧ (mid.getLastD f').y = (mid.getLastD (kFirst c : Point PD)).y ∧
        (mid.getLastD f').a = (mid.getLastD (kFirst c : Point PD)).a := by
      intro f' e1 e2 e3
      cases mid with
      | nil => exact ⟨e1, e2, e3⟩
      | cons q mid => rw [List.getLastD_cons, List.getLastD_cons]; exact ⟨rfl, rfl, rfl⟩
    obtain ⟨e1, e2, e3⟩ := hb { (kFirst c : Point PD) with b := last.b } rfl rfl rfl
    rw [List.map_append, List.map_append]
    refine congr (congrArg _ ?_) ?_
    · cases mid with
      | nil => rfl
      | cons q mid => rfl
    · refine congrArg (fun z => [z]) (polygon_ends ?_ ?_ ?_ hcur ?_ rfl hpl)
      · exact e1.symm
      · exact e2.symm
      · exact e3.symm
      · rw [hfirst]
  | false =>
    rw [if_neg (by simp)]
    refine ⟨by rw [hfirst]; rfl, _, rfl, ?_⟩
    rw [if_pos rfl, closedPairs_any]
    refine List.rel_append hd (.cons ?_ .nil)
    rw [List.getLastD_concat]
    have hk : (kFirst c : Point PD).ptype = .curve := by rw [hfirst]
    unfold polygon
    simp only [hk, if_true, segment]
    simp only [DrawsSeg]
    rw [placeSingle_inSingle, placeSingle_inSingle, unsigned_eq]
    refine ⟨?_, .inr ?_, .inr ?_, ?_⟩
    · show unsignedPt (last.x, last.y) = _
      rw [h2, h3]
      rfl
    · show unsignedPt (outPos last) = _
      unfold outPos
      rw [h4, hfin]
      rfl
    · show unsignedPt (inPos (kFirst c)) = _
      unfold inPos
      rw [hfirst, hfin]
      rfl
    · show unsignedPt (_, _) = _
      rw [hfirst]
      rfl

theorem open_sub (c : KSub) (hc : c.closed = false) :
    openContour (mergeEnds (kFirst c :: kPoints (kFin c) c.segs) : Contour PD) = true ∧
    (DrawsSub c (mergeEnds (kFirst c :: kPoints (kFin c) c.segs) : Contour PD) ↔ ¬ LostSub c) := by
  have hfin : kFin c = .colocated := by unfold kFin; rw [if_neg (by simp [hc])]
  have hfirst : (kFirst c : Point PD) = { x := c.start.1.to32, y := c.start.2.to32, ptype := .move } := by
    unfold kFirst
    rw [if_neg (by simp [hc])]
  by_cases hs : c.segs = []
  · rw [hs]
    refine ⟨by rw [hfirst]; rfl, ?_⟩
    unfold DrawsSub LostSub
    rw [drawnBy_sub, hs, hc]
    simp only [Bool.false_eq_true, if_false, ne_eq, not_true_eq_false, false_and, not_false_eq_true, iff_true]
    exact ⟨by rw [hfirst]; rfl, _, rfl, .nil⟩
  obtain ⟨mid, last, h1, h2, h3, h4, h5⟩ := kPoints_last (PD := PD) (kFin c) c.segs hs c.start
  have hsame : samePlace (inSingle c.stop) (inSingle c.start) = (last.x.feq (kFirst c : Point PD).x && last.y.feq (kFirst c : Point PD).y) := by
    rw [samePlace_inSingle, h2, h3, hfirst]
    rfl
  have hlen := kPoints_length (PD := PD) (kFin c) c.segs
  rw [h1, mergeEnds_concat, ← hsame]
  unfold DrawsSub LostSub
  rw [drawnBy_sub, hc]
  simp only [Bool.false_eq_true, if_false, false_and, List.append_nil, Bool.not_false, ne_eq, hs, not_false_eq_true, true_and]
  cases hm : samePlace (inSingle c.stop) (inSingle c.start) with
  | true =>
    rw [if_pos rfl]
    refine ⟨by rw [hfirst]; rfl, ?_⟩
    simp only [true_or, not_true_eq_false, iff_false]
    rintro ⟨-, _, h, hd⟩
    cases h
    have := hd.length_eq
    rw [segsOnly_length, ← hlen, h1] at this
    simp [openPairs] at this
  | false =>
    rw [if_neg (by simp), ← h1]
    have ho : openContour (kFirst c :: kPoints (kFin c) c.segs : Contour PD) = true := by rw [hfirst]; rfl
    refine ⟨ho, ?_⟩
    simp only [ho, Bool.false_eq_true, false_or, true_and]
    have hp : unsignedPt ((kFirst c : Point PD).x, (kFirst c : Point PD).y) = placeSingle c.start := by rw [hfirst]; rfl
    have hout : outPos (kFirst c : Point PD) = ((kFirst c : Point PD).x, (kFirst c : Point PD).y) := by rw [hfirst]; rfl
    constructor
    · rintro ⟨_, h, hd⟩ ⟨a, d, p, hh, hne⟩
      cases h
      obtain ⟨l, hl⟩ : ∃ l, c.segs = .cubic a d p :: l := by
        cases hsg : c.segs with
        | nil => exact absurd hsg hs
        | cons g l =>
          rw [hsg] at hh
          cases hh
          exact ⟨l, rfl⟩
      rw [hl] at hd
      unfold openPairs at hd
      rw [List.tail_cons] at hd
      cases hd with
      | cons h1 _ =>
        unfold polygon at h1
        rw [if_pos rfl] at h1
        have := (drawsSeg_cubic.1 h1).2.1
        refine hne (this.symm.trans ?_)
        exact (congrArg unsignedPt hout).trans hp
    · intro hn
      refine ⟨_, rfl, kPoints_draw (kFin c) c.segs (kFirst c) c.start hp ?_⟩
      unfold GoodOut
      split
      · trivial
      · rw [hout]; exact hp
      · rename_i a d p l hsg
        rw [hout, hp]
        by_contra hne
        exact hn ⟨a, d, p, by rw [hsg]; rfl, fun e => hne e.symm⟩

theorem dot_sub (c : KSub) (hc : c.closed = true) (hs : c.segs = []) :
    DrawsSub c (mergeEnds (kFirst c :: kPoints (kFin c) c.segs) : Contour PD) ↔ ¬ LostSub c := by
  obtain ⟨m, segs, closed⟩ := c
  subst hc hs
  unfold DrawsSub LostSub
  rw [drawnBy_sub]
  simp only [if_true, true_and, KSub.stop, List.map_nil, List.getLastD_nil, segsOnly, List.nil_append, Bool.not_true]
  cases hm : samePlace (inSingle m) (inSingle m) with
  | true =>
    simp only [not_true_eq_false, iff_false, Bool.true_eq_false, if_false]
    rintro ⟨-, _, h, hd⟩
    cases h
    cases hd
  | false =>
    simp only [Bool.false_eq_true, not_false_eq_true, iff_true, if_true]
    refine ⟨rfl, _, rfl, .cons ?_ .nil⟩
    exact drawsSeg_line rfl rfl rfl rfl

/-! ## C117 -/

/-- **C117**, exactly.  An outline made from a kurbo path of lines and curves in which `MoveTo` begins every subpath
has one contour for each subpath.  It is open or closed like it, and draws it, except exactly: open subpaths that
begin with a curve whose first control point is not at its start (it is put there), open subpaths that end where they
start (the last line or curve is lost), and closed subpaths without lines and curves.  (Places are rounded to single
precision.  Paths with quadratic curves panic, C37; paths of one element are the subject of `C117_short`.) -/
theorem C117_exact (cs : List KSub) (h : 2 ≤ (cs.flatMap KSub.els).length) :
    ∃ o : Outline PD, outlineFromKurbo (cs.flatMap KSub.els) = .ok o ∧
      List.Forall₂ (fun c d => openContour d = !c.closed ∧ (DrawsSub c d ↔ ¬ LostSub c)) cs o := by
  refine ⟨_, outlineFromKurbo_subs cs h, ?_⟩
  rw [List.forall₂_map_right_iff, List.forall₂_same]
  intro c _
  cases hc : c.closed with
  | false => exact open_sub c hc
  | true =>
    by_cases hs : c.segs = []
    · refine ⟨?_, dot_sub c hc hs⟩
      rw [hs]
      simp [kPoints, mergeEnds, kFirst, hc, openContour]
    · have hd := closed_sub (PD := PD) c hc hs
      refine ⟨by rw [hd.1, hc], iff_of_true hd ?_⟩
      unfold LostSub
      rw [if_pos hc]
      exact fun h => hs h.1

/-- **C117**, as far as it holds: closed subpaths with lines or curves, and open subpaths that begin with a line and do
not end where they start. -/
theorem C117_partial (cs : List KSub) (h : 2 ≤ (cs.flatMap KSub.els).length) (hn : ∀ c ∈ cs, ¬ LostSub c) :
    ∃ o : Outline PD, outlineFromKurbo (cs.flatMap KSub.els) = .ok o ∧ List.Forall₂ DrawsSub cs o := by
  obtain ⟨o, h1, h2⟩ := C117_exact (PD := PD) cs h
  refine ⟨o, h1, ?_⟩
  clear h h1
  induction h2 with
  | nil => exact .nil
  | cons hx _ ih => exact .cons (hx.2.2 (hn _ (List.mem_cons_self ..))) (ih fun c hc => hn c (List.mem_cons_of_mem _ hc))

/-- Paths of no or one element become one contour without points. -/
theorem C117_short (path : List PathEl) (h : path.length ≤ 1) : (outlineFromKurbo path : R (Outline PD)) = .ok [[]] := by
  unfold outlineFromKurbo splitPenOperations
  rw [List.length_map, if_pos h]
  rfl

/-- A place with integers. -/
def kPlace (x y : Int) : F64 × F64 := (Flt.ofInt b64 x, Flt.ofInt b64 y)

/-- A triangle with a curve and an open line. -/
def kTriangle : KSub := ⟨kPlace 1 0, [.line (kPlace 2 0), .cubic (kPlace 3 0) (kPlace 3 2) (kPlace 2 2)], true⟩
def kLine : KSub := ⟨kPlace 5 5, [.line (kPlace 6 6), .cubic (kPlace 7 7) (kPlace 8 7) (kPlace 8 8)], false⟩

theorem kTriangle_drawn : ¬ LostSub kTriangle := fun h => absurd h.1 (by simp [kTriangle])

theorem kLine_drawn : ¬ LostSub kLine := by
  rintro ⟨-, h | ⟨a, d, p, h, -⟩⟩
  · exact absurd h (by decide +kernel)
  · cases h

example : ∃ o : Outline PD, outlineFromKurbo ([kTriangle, kLine].flatMap KSub.els) = .ok o ∧ List.Forall₂ DrawsSub [kTriangle, kLine] o := by
  refine C117_partial _ (by decide) fun c hc => ?_
  rcases List.mem_cons.1 hc with rfl | hc
  · exact kTriangle_drawn
  · rw [List.mem_singleton.1 hc]
    exact kLine_drawn

theorem lost_alone {c : KSub} (h2 : 2 ≤ c.els.length) (h : LostSub c) : ∃ d : Contour PD, outlineFromKurbo c.els = .ok [d] ∧ ¬ DrawsSub c d := by
  obtain ⟨o, h3, h4⟩ := C117_exact (PD := PD) [c] (by rw [List.flatMap_singleton]; exact h2)
  rw [List.flatMap_singleton] at h3
  cases h4 with
  | cons hx ht =>
    cases ht
    exact ⟨_, h3, fun hd => hx.2.1 hd h⟩

/-- **C117 is false of the code**: a single curve loses its first control point. -/
theorem C117_false : ∃ (c : KSub) (d : Contour PD), c.closed = false ∧ (∃ a e p, c.segs = [.cubic a e p]) ∧
    samePlace (inSingle c.stop) (inSingle c.start) = false ∧ outlineFromKurbo c.els = .ok [d] ∧ ¬ DrawsSub c d := by
  let c : KSub := ⟨kPlace 1 0, [.cubic (kPlace 2 1) (kPlace 3 1) (kPlace 4 0)], false⟩
  obtain ⟨d, h1, h2⟩ := lost_alone (PD := PD) (c := c) (by decide) ⟨by simp [c], .inr ⟨_, _, _, rfl, by decide +kernel⟩⟩
  exact ⟨c, d, rfl, ⟨_, _, _, rfl⟩, by decide +kernel, h1, h2⟩

/-- Neither is an open subpath drawn that ends where it starts. -/
theorem C117_false_ends : ∃ (c : KSub) (d : Contour PD), c.closed = false ∧ (∃ p q r, c.segs = [.line p, .line q, .line r]) ∧
    outlineFromKurbo c.els = .ok [d] ∧ ¬ DrawsSub c d := by
  let c : KSub := ⟨kPlace 1 0, [.line (kPlace 2 1), .line (kPlace 3 1), .line (kPlace 1 0)], false⟩
  obtain ⟨d, h1, h2⟩ := lost_alone (PD := PD) (c := c) (by decide) ⟨by simp [c], .inl (by decide +kernel)⟩
  exact ⟨c, d, rfl, ⟨_, _, _, rfl⟩, h1, h2⟩

instance (s : Poly) (g : PathSeg) : Decidable (DrawsSeg s g) := by
  unfold DrawsSeg
  cases g <;> infer_instance

/-- A subpath that begins without `MoveTo`, after `ClosePath`, is taken for a part of the one before: what should be drawn
is a line, back, and another line; the outline has one contour, a triangle. -/
theorem C117_false_continues : ∃ (path : List PathEl) (segs : List PathSeg) (d : Contour Unit),
    drawnBy (path.map elInSingle) = some segs ∧ outlineFromKurbo path = .ok [d] ∧ (closedPairs d).length = segs.length ∧
      ((closedPairs d).zip segs).map (fun x => decide (DrawsSeg (polygon x.1) x.2)) = [true, false, false] := by
  refine ⟨[.moveTo (kPlace 0 0), .lineTo (kPlace 1 0), .closePath, .lineTo (kPlace 0 1)], _, _, rfl, rfl, ?_, ?_⟩
  · decide +kernel
  · decide +kernel

end GP
