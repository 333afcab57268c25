import Verif.Props.SkiaPath
import Verif.Props.SkiaExact
import Verif.Spec.SkiaDraw
/-!
# What outlines from Skia paths draw (C109)
-/
open Fl
namespace GP
variable {PD : Type}
open Spec

/-- The element of a piece. -/
def strokePt (g : Stroke) : SkPt :=
  if g.curved then ⟨.curve, [g.poly.1, g.poly.2.1, g.poly.2.2.1, g.poly.2.2.2], none⟩ else ⟨.line, [g.poly.1, g.poly.2.2.2], none⟩

theorem stop_eq (c : SkContour) : c.stop = penAt c.start c.segs := by
  rw [penAt_eq, SkContour.stop, List.getLastD_cons]

theorem cubicPt_strokes (conic : ConicToQuads) (s : SkPoint) (g : SkSeg) : cubicPt conic (s, g) = (g.strokes conic s).map strokePt := by
  cases g <;> rfl

theorem cubicPts_strokes (conic : ConicToQuads) (l : List SkSeg) : ∀ s, (withStarts s l).flatMap (cubicPt conic) = (strokesFrom conic s l).map strokePt := by
  induction l with
  | nil => intro s; rfl
  | cons g l ih =>
    intro s
    rw [withStarts, List.flatMap_cons, ih, cubicPt_strokes, strokesFrom, List.map_append]

theorem cubicsOf_strokes (conic : ConicToQuads) (c : SkContour) :
    cubicsOf conic c = (if c.closed then [] else [moveItem c.start]) ++ (c.strokes conic).map strokePt := by
  unfold cubicsOf allSegs SkContour.strokes
  rw [List.flatMap_append, List.map_append, cubicPts_strokes, stop_eq]
  by_cases h : c.closed = true ∧ ¬ sameOrNaN (penAt c.start c.segs) c.start
  · rw [if_pos h, if_pos h]
    rfl
  · rw [if_neg h, if_neg h]
    rfl

/-- The point between two pieces. -/
def joint (g h : Stroke) : Point PD :=
  { x := h.poly.1.1, y := h.poly.1.2, a := if h.curved then Handle.ofSk h.poly.2.1 else .colocated,
    b := if g.curved then Handle.ofSk g.poly.2.2.1 else .colocated, ptype := if g.curved ∨ h.curved then .curve else .line }

/-- What the last piece does to the first point. -/
def lastToJoint (first g : Stroke) (c0 : Point PD) : Point PD :=
  if g.curved then { c0 with a := if first.curved then Handle.ofSk first.poly.2.1 else c0.a, b := Handle.ofSk g.poly.2.2.1 } else c0

theorem skPointAt_stroke (first g h : Stroke) (c0 : Point PD) (cs : Contour PD) (i : Nat) (isLast : Bool) (hi : i ≠ 0) :
    skPointAt (strokePt first) (strokePt g) (c0 :: cs) i isLast (strokePt h) =
      .ok ((if isLast then lastToJoint first h c0 else c0) :: (cs ++ [joint g h])) := by
  unfold skPointAt lastToJoint joint
  cases hp : g.curved <;> cases hq : h.curved <;> cases isLast <;>
    cases hf : first.curved <;> simp [strokePt, hp, hq, hf, hi]

theorem skPoints_strokes (first : Stroke) (l : List Stroke) : ∀ (o p : Stroke) (c0 : Point PD) (cs : Contour PD) (i : Nat), i ≠ 0 →
    skPoints (strokePt first) (strokePt o) (c0 :: cs) i ((p :: l).map strokePt) =
      .ok (lastToJoint first (l.getLastD p) c0 :: (cs ++ List.zipWith joint (o :: p :: l) (p :: l))) := by
  induction l with
  | nil =>
    intro o p c0 cs i hi
    simp only [List.map_cons, List.map_nil, skPoints, List.isEmpty_nil]
    rw [skPointAt_stroke first o p c0 cs i true hi]
    simp
  | cons q l ih =>
    intro o p c0 cs i hi
    rw [List.map_cons, skPoints, skPointAt_stroke first o p c0 cs i _ hi]
    have := ih p q c0 (cs ++ [joint o p]) (i + 1) (by omega)
    rw [List.map_cons, List.isEmpty_cons, Out.bind_ok, ← List.map_cons]
    simp only [Bool.false_eq_true, if_false]
    rw [this, List.append_assoc, List.getLastD_cons]
    rfl

/-- The closed contour of some pieces. -/
def closedFrom (g h : Stroke) (l : List Stroke) : Contour PD :=
  { (joint (l.getLastD h) g : Point PD) with ptype := if g.curved then .curve else .line } :: List.zipWith joint (g :: h :: l) (h :: l)

theorem fromSkContour_strokes (g h : Stroke) (l : List Stroke) :
    fromSkContour ((g :: h :: l).map strokePt) = .ok (closedFrom g h l : Contour PD) := by
  have hlast : ((h :: l).map strokePt).getLastD (strokePt g) = strokePt (l.getLastD h) := by
    rw [List.map_cons, List.getLastD_cons, List.getLastD_eq_getLast?, List.getLastD_eq_getLast?, List.getLast?_map]
    cases l.getLast? <;> rfl
  rw [List.map_cons]
  simp only [fromSkContour]
  rw [hlast, skPoints]
  generalize hz : l.getLastD h = z
  have h0 : skPointAt (strokePt g) (strokePt z) ([] : Contour PD) 0 false (strokePt g) =
      .ok [{ (joint z g : Point PD) with ptype := (if g.curved then .curve else .line), b := if g.curved = true ∧ z.curved = true then Handle.ofSk z.poly.2.2.1 else .colocated }] := by
    unfold skPointAt joint
    cases hp : g.curved <;> cases hq : z.curved <;> simp [strokePt, hp, hq]
  rw [List.map_cons, List.isEmpty_cons, h0, Out.bind_ok, ← List.map_cons, skPoints_strokes g l g h _ [] (0 + 1) (by omega), hz]
  have hfin : lastToJoint g z { (joint z g : Point PD) with ptype := (if g.curved then .curve else .line), b := if g.curved = true ∧ z.curved = true then Handle.ofSk z.poly.2.2.1 else .colocated } =
      { (joint z g : Point PD) with ptype := if g.curved then .curve else .line } := by
    unfold lastToJoint joint
    cases hp : g.curved <;> cases hq : z.curved <;> simp
  rw [hfin, Out.bind_ok, List.nil_append, if_neg]
  · unfold closedFrom
    rw [hz]
  · simp only [List.head?_cons, Option.any_some, decide_eq_true_eq]
    split <;> decide

/-- Each piece begins where the one before it ended. -/
def Chained : List Stroke → Prop
  | g :: h :: l => h.poly.1 = g.poly.2.2.2 ∧ Chained (h :: l)
  | _ => True

/-- The control polygon of a line. -/
theorem poly_line {g : Stroke} (h : g.curved = false) : g.poly.2.1 = g.poly.1 ∧ g.poly.2.2.1 = g.poly.2.2.2 := by
  cases g with
  | line a b => exact ⟨rfl, rfl⟩
  | quad a b c => cases h
  | cubic a b c d => cases h

/-- A point up to the signs of zeros. -/
def unsignedPt (p : SkPoint) : SkPoint := (p.1.normZero, p.2.normZero)

theorem unsigned_eq (s : Poly) : s.unsigned = (unsignedPt s.1, unsignedPt s.2.1, unsignedPt s.2.2.1, unsignedPt s.2.2.2) := rfl

/-- Between two joints lies the piece between them. -/
theorem polygon_joint (o g h : Stroke) (hc : unsignedPt h.poly.1 = unsignedPt g.poly.2.2.2) (t t' : PointType) (ht : t' = .curve ∨ g.curved = false) :
    (polygon ({ (joint o g : Point PD) with ptype := t }, { (joint g h : Point PD) with ptype := t' })).unsigned = g.poly.unsigned := by
  rw [unsigned_eq, unsigned_eq]
  unfold polygon
  cases hg : g.curved with
  | false =>
    obtain ⟨h1, h2⟩ := poly_line hg
    rw [h1, h2, ← hc]
    split <;> simp [segment, joint, hg, outPos, inPos]
  | true =>
    rw [hg] at ht
    have ht : t' = .curve := by simpa using ht
    rw [if_pos ht, ← hc]
    simp [segment, joint, hg, outPos, inPos, Handle.ofSk]

/-- A curve that ends in a line point is lost. -/
theorem polygon_joint_lost (o g h : Stroke) (hc : unsignedPt h.poly.1 = unsignedPt g.poly.2.2.2) (t t' : PointType) (ht : t' ≠ .curve) :
    (polygon ({ (joint o g : Point PD) with ptype := t }, { (joint g h : Point PD) with ptype := t' })).unsigned = g.poly.unsigned ↔
      g.poly.unsigned.straight := by
  rw [unsigned_eq, unsigned_eq, Poly.straight, ← hc]
  unfold polygon
  rw [if_neg ht]
  simp only [joint, Prod.mk.injEq, true_and, and_true]
  constructor
  · rintro ⟨h1, h2⟩
    exact ⟨h1.symm, h2.symm⟩
  · rintro ⟨h1, h2⟩
    exact ⟨h1.symm, h2.symm⟩

/-- The pieces between joints. -/
theorem polygons_joints (l : List Stroke) : ∀ (o p : Stroke), Chained (p :: l) →
    ((List.zipWith joint (o :: p :: l) (p :: l) : Contour PD).zip (List.zipWith joint (p :: l) l)).map (fun x => (polygon x).unsigned) =
      (p :: l).dropLast.map fun s => s.poly.unsigned := by
  induction l with
  | nil => intro o p _; rfl
  | cons q l ih =>
    intro o p h
    have := ih p q h.2
    have h1 : (polygon ((joint o p : Point PD), (joint p q : Point PD))).unsigned = p.poly.unsigned :=
      polygon_joint o p q (by rw [h.1]) (joint o p : Point PD).ptype (joint p q : Point PD).ptype (by
        cases hp : p.curved with
        | false => exact Or.inr rfl
        | true => exact Or.inl (by simp [joint, hp]))
    show _ :: _ = _ :: _
    exact congr (congrArg List.cons h1) this

theorem getLast_joints (l : List Stroke) : ∀ (o p : Stroke), ∃ y, (List.zipWith joint (o :: p :: l) (p :: l) : Contour PD).getLast? = some (joint y (l.getLastD p)) := by
  induction l with
  | nil => intro o p; exact ⟨o, rfl⟩
  | cons q l ih =>
    intro o p
    obtain ⟨y, hy⟩ := ih p q
    refine ⟨y, ?_⟩
    rw [List.getLastD_cons, ← hy]
    rw [List.zipWith_cons_cons, List.zipWith_cons_cons, List.getLast?_cons_cons]

/-- What the closed contour of some pieces draws. -/
theorem closedFrom_draws (g h : Stroke) (l : List Stroke) (hch : Chained (g :: h :: l))
    (hz : unsignedPt g.poly.1 = unsignedPt (l.getLastD h).poly.2.2.2) :
    (closedPairs (closedFrom g h l : Contour PD)).map (fun x => (polygon x).unsigned) = (g :: h :: l).map (fun s => s.poly.unsigned) ↔
      ¬ (g.curved = false ∧ (l.getLastD h).curved = true ∧ ¬ (l.getLastD h).poly.unsigned.straight) := by
  have hpts : List.zipWith joint (g :: h :: l) (h :: l) = (joint g h :: List.zipWith joint (h :: l) l : Contour PD) := rfl
  obtain ⟨y, hy⟩ := getLast_joints (PD := PD) l g h
  rw [hpts] at hy
  have hlast : (joint g h :: List.zipWith joint (h :: l) l : Contour PD).getLast (by simp) = joint y (l.getLastD h) := by
    rw [List.getLast?_eq_some_getLast (by simp)] at hy
    exact Option.some.inj hy
  have hin := polygons_joints (PD := PD) (h :: l) (l.getLastD h) g hch
  unfold closedFrom
  rw [hpts, closedPairs_split, List.map_append, hlast]
  have hin' : (({ (joint (l.getLastD h) g : Point PD) with ptype := if g.curved then .curve else .line } :: joint g h :: List.zipWith joint (h :: l) l : Contour PD).zip
      (joint g h :: List.zipWith joint (h :: l) l)).map (fun x => (polygon x).unsigned) = (g :: h :: l).dropLast.map fun s => s.poly.unsigned := hin
  have hsplit : (g :: h :: l).map (fun s => s.poly.unsigned) =
      (g :: h :: l).dropLast.map (fun s => s.poly.unsigned) ++ [(l.getLastD h).poly.unsigned] := by
    have : (g :: h :: l) = (g :: h :: l).dropLast ++ [l.getLastD h] := by
      have h1 := (List.dropLast_append_getLast (l := g :: h :: l) (by simp)).symm
      have h2 : (g :: h :: l).getLast (by simp) = l.getLastD h := by
        have : (g :: h :: l).getLast? = some (l.getLastD h) := by
          rw [List.getLast?_cons_cons, List.getLast?_cons, List.getLastD_eq_getLast?]
        rw [List.getLast?_eq_some_getLast (by simp)] at this
        exact Option.some.inj this
      rw [h2] at h1
      exact h1
    conv_lhs => rw [this]
    rw [List.map_append]
    rfl
  rw [hin', hsplit, List.append_cancel_left_eq]
  generalize l.getLastD h = z at *
  simp only [List.map_cons, List.map_nil, List.cons.injEq, and_true]
  by_cases hb : g.curved = false ∧ z.curved = true
  · have h1 := polygon_joint_lost (PD := PD) y z g hz (joint y z : Point PD).ptype .line (by decide)
    rw [hb.1] at *
    simp only [Bool.false_eq_true, if_false]
    refine h1.trans ?_
    simp [hb.2]
  · have h1 := polygon_joint (PD := PD) y z g hz (joint y z : Point PD).ptype (if g.curved then .curve else .line) (by
      cases hg : g.curved with
      | true => exact Or.inl rfl
      | false =>
        right
        cases hzc : z.curved with
        | false => rfl
        | true => exact absurd ⟨hg, hzc⟩ hb)
    exact ⟨fun _ h => hb ⟨h.1, h.2.1⟩, fun _ => h1⟩

/-! ## Where pieces begin and end -/

/-- Pieces lead from a point to a point. -/
def Leads : SkPoint → List Stroke → SkPoint → Prop
  | s, [], e => s = e
  | s, g :: l, e => g.poly.1 = s ∧ Leads g.poly.2.2.2 l e

theorem Leads.append {l : List Stroke} : ∀ {s m e : SkPoint} {k : List Stroke}, Leads s l m → Leads m k e → Leads s (l ++ k) e := by
  induction l with
  | nil => intro s m e k h hk; cases h; exact hk
  | cons g l ih => intro s m e k h hk; exact ⟨h.1, ih h.2 hk⟩

theorem Leads.chained {l : List Stroke} : ∀ {s e : SkPoint}, Leads s l e → Chained l := by
  induction l with
  | nil => intros; trivial
  | cons g l ih =>
    intro s e h
    cases l with
    | nil => trivial
    | cons k l => exact ⟨h.2.1, ih h.2⟩

theorem Leads.last {l : List Stroke} : ∀ {s e : SkPoint} {g : Stroke}, Leads s (g :: l) e → (l.getLastD g).poly.2.2.2 = e := by
  induction l with
  | nil => intro s e g h; exact h.2
  | cons k l ih => intro s e g h; rw [List.getLastD_cons]; exact ih h.2

theorem leads_strokes {conic : ConicToQuads} (hk : KeepsEnds conic) (l : List SkSeg) : ∀ s, Leads s (strokesFrom conic s l) (penAt s l) := by
  induction l with
  | nil => intro s; rfl
  | cons g l ih =>
    intro s
    rw [strokesFrom, penAt]
    refine Leads.append (m := g.stop) ?_ (ih g.stop)
    cases g with
    | line p => exact ⟨rfl, rfl⟩
    | quad c p => exact ⟨rfl, rfl⟩
    | conic c p w => exact ⟨(hk s c p w).1, rfl, (hk s c p w).2⟩
    | cubic a b p => exact ⟨rfl, rfl⟩

/-- What a contour draws leads from its start to its start, if it is closed, or to its end. -/
theorem leads_contour {conic : ConicToQuads} (hk : KeepsEnds conic) (c : SkContour) :
    ∃ e, Leads c.start (c.strokes conic) e ∧ (c.closed = false → e = c.stop) ∧ (c.closed = true → e = c.start ∨ (e = c.stop ∧ sameOrNaN c.stop c.start)) := by
  have h := leads_strokes hk c.segs c.start
  rw [← stop_eq] at h
  unfold SkContour.strokes
  by_cases hc : c.closed = true ∧ ¬ sameOrNaN c.stop c.start
  · rw [if_pos hc]
    exact ⟨c.start, h.append ⟨rfl, rfl⟩, fun e => (by rw [hc.1] at e; cases e), fun _ => Or.inl rfl⟩
  · rw [if_neg hc, List.append_nil]
    refine ⟨c.stop, h, fun _ => rfl, fun e => Or.inr ⟨rfl, ?_⟩⟩
    exact Classical.not_not.1 fun hn => hc ⟨e, hn⟩

theorem unsignedPt_of_feq {p q : SkPoint} (h1 : p.1.feq q.1 = true) (h2 : p.2.feq q.2 = true) : unsignedPt p = unsignedPt q := by
  unfold unsignedPt
  rw [normZero_of_feq h1, normZero_of_feq h2]

/-! ## Open contours -/

/-- Points with explicit handles for some pieces. -/
theorem points_for (l : List Stroke) : ∀ (g : Stroke) (p : Point PD), (p.x, p.y) = g.poly.1 → outPos p = g.poly.2.1 → Chained (g :: l) →
    ∃ (m : List (Point PD)) (e : Point PD), ((p :: m).zip (m ++ [e])).map itemOf = (g :: l).map strokePt ∧
      (openPairs (p :: m ++ [e])).map polygon = (g :: l).map Stroke.poly := by
  have one : ∀ (g : Stroke) (p q : Point PD), (p.x, p.y) = g.poly.1 → outPos p = g.poly.2.1 → (q.x, q.y) = g.poly.2.2.2 → inPos q = g.poly.2.2.1 →
      q.ptype = (if g.curved then .curve else .line) → itemOf (p, q) = strokePt g ∧ polygon (p, q) = g.poly := by
    intro g p q h1 h2 h3 h4 h5
    unfold itemOf polygon strokePt
    simp only [segment]
    cases hg : g.curved with
    | false =>
      obtain ⟨e1, e2⟩ := poly_line hg
      rw [hg] at h5
      simp only [h1, h3, h5, Bool.false_eq_true, if_false, reduceCtorEq, true_and]
      exact Prod.ext rfl (Prod.ext e1.symm (Prod.ext e2.symm rfl))
    | true =>
      rw [hg] at h5
      simp only [h1, h2, h3, h4, h5, if_true]
      exact ⟨trivial, trivial⟩
  induction l with
  | nil =>
    intro g p h1 h2 _
    obtain ⟨e1, e2⟩ := one g p { x := g.poly.2.2.2.1, y := g.poly.2.2.2.2, b := Handle.ofSk g.poly.2.2.1, ptype := if g.curved then .curve else .line } h1 h2 rfl rfl rfl
    refine ⟨[], _, congrArg (fun z => [z]) e1, congrArg (fun z => [z]) e2⟩
  | cons h l ih =>
    intro g p h1 h2 hc
    obtain ⟨e1, e2⟩ := one g p { x := h.poly.1.1, y := h.poly.1.2, a := Handle.ofSk h.poly.2.1, b := Handle.ofSk g.poly.2.2.1, ptype := if g.curved then .curve else .line }
      h1 h2 hc.1 rfl rfl
    obtain ⟨m, e, f1, f2⟩ := ih h { x := h.poly.1.1, y := h.poly.1.2, a := Handle.ofSk h.poly.2.1, b := Handle.ofSk g.poly.2.2.1, ptype := if g.curved then .curve else .line }
      rfl rfl hc.2
    exact ⟨_ :: m, e, congr (congrArg List.cons e1) f1, congr (congrArg List.cons e2) f2⟩

theorem open_draws {conic : ConicToQuads} (hk : KeepsEnds conic) (c : SkContour) (hc : c.closed = false) (hs : c.segs ≠ [])
    (hn : c.start.1.isNaN = false ∧ c.start.2.isNaN = false) :
    ∃ d : Contour PD, fromSkContour (cubicsOf conic c) = .ok d ∧ DrawsPath conic c d := by
  obtain ⟨e, hl, -, -⟩ := leads_contour hk c
  rw [cubicsOf_strokes]
  unfold DrawsPath
  cases hst : c.strokes conic with
  | nil =>
    obtain ⟨x, l, hx⟩ : ∃ x l, c.segs = x :: l := by
      cases h : c.segs with
      | nil => exact absurd h hs
      | cons x l => exact ⟨x, l, rfl⟩
    have hne := cubicPt_strokes conic c.start x
    unfold SkContour.strokes at hst
    rw [hx, strokesFrom] at hst
    have : SkSeg.strokes conic c.start x = [] := by
      cases h : SkSeg.strokes conic c.start x with
      | nil => rfl
      | cons a b => rw [h] at hst; cases hst
    rw [this] at hne
    exact absurd hne (cubicPt_ne conic _)
  | cons g l =>
    rw [hst] at hl
    obtain ⟨m, e, h1, h2⟩ := points_for (PD := PD) l g { x := g.poly.1.1, y := g.poly.1.2, a := Handle.ofSk g.poly.2.1, ptype := .move } rfl rfl hl.chained
    have hg := hl.1
    have hf := fromSkContour_open (PD := PD) { x := g.poly.1.1, y := g.poly.1.2, a := Handle.ofSk g.poly.2.1, ptype := .move } m e (by rw [hg]; exact hn)
    rw [openItems, h1] at hf
    simp only [hc, Bool.false_eq_true, if_false]
    refine ⟨backOpen { x := g.poly.1.1, y := g.poly.1.2, a := Handle.ofSk g.poly.2.1, ptype := .move } m e, ?_, ?_, ?_⟩
    · rw [← hg]
      exact hf
    · cases m <;> rfl
    · have := backOpen_polygons (PD := PD) { x := g.poly.1.1, y := g.poly.1.2, a := Handle.ofSk g.poly.2.1, ptype := .move } m e
      rw [this]
      have h3 := congrArg (List.map Poly.unsigned) h2
      rw [List.map_map, List.map_map] at h3
      exact h3

/-! ## Closed contours -/

theorem closed_draws {conic : ConicToQuads} (hk : KeepsEnds conic) (c : SkContour) (hc : c.closed = true) (hs : c.segs ≠ [])
    (hn : c.start.1.isNaN = false ∧ c.start.2.isNaN = false ∧ c.stop.1.isNaN = false ∧ c.stop.2.isNaN = false) (hl : ¬ c.isLoop) :
    ∃ d : Contour PD, fromSkContour (cubicsOf conic c) = .ok d ∧ openContour d = false ∧ (DrawsPath conic c d ↔ ¬ LineThenCurve conic c) := by
  obtain ⟨e, hld, -, he⟩ := leads_contour hk c
  have hend : unsignedPt c.start = unsignedPt e := by
    rcases he hc with rfl | ⟨rfl, h | h | h | h | h⟩
    · rfl
    · rw [hn.2.2.1] at h; cases h
    · rw [hn.2.2.2] at h; cases h
    · rw [hn.1] at h; cases h
    · rw [hn.2.1] at h; cases h
    · exact (unsignedPt_of_feq h.1 h.2).symm
  have hloop := (single_curve_iff conic c hc).not.2 hl
  rw [cubicsOf_strokes] at hloop ⊢
  simp only [hc, if_true, List.nil_append] at hloop ⊢
  unfold DrawsPath LineThenCurve
  simp only [hc, if_true, true_and]
  match hst : c.strokes conic with
  | [] =>
    obtain ⟨x, l, hx⟩ : ∃ x l, c.segs = x :: l := by
      cases h : c.segs with
      | nil => exact absurd h hs
      | cons x l => exact ⟨x, l, rfl⟩
    have hne := cubicPt_strokes conic c.start x
    unfold SkContour.strokes at hst
    rw [hx, strokesFrom] at hst
    have : SkSeg.strokes conic c.start x = [] := by
      cases h : SkSeg.strokes conic c.start x with
      | nil => rfl
      | cons a b => rw [h] at hst; cases hst
    rw [this] at hne
    exact absurd hne (cubicPt_ne conic _)
  | [g] =>
    rw [hst] at hloop hld
    have hg : g.curved = false := by
      cases h : g.curved with
      | false => rfl
      | true => exact absurd ⟨_, rfl, by simp [strokePt, h]⟩ hloop
    refine ⟨[{ x := g.poly.1.1, y := g.poly.1.2, ptype := .line }], ?_, rfl, ?_⟩
    · unfold fromSkContour
      simp [strokePt, hg, skPoints, skPointAt, Out.unwrap]
    · have h1 : unsignedPt g.poly.2.2.2 = unsignedPt g.poly.1 := by rw [hld.1, hend]; exact congrArg _ hld.2
      obtain ⟨e1, e2⟩ := poly_line hg
      constructor
      · rintro - ⟨g', hg', h', hh', h1, h2, -⟩
        have e := Option.mem_some_iff.1 (show h' ∈ some g from hh')
        rw [← e, hg] at h2
        cases h2
      · intro _
        refine ⟨rfl, congrArg (fun z => [z]) ?_⟩
        show Poly.unsigned (polygon _) = g.poly.unsigned
        rw [unsigned_eq g.poly, e1, e2, h1]
        rfl
  | g :: h :: l =>
    rw [hst] at hld
    refine ⟨_, fromSkContour_strokes g h l, ?_, ?_⟩
    · unfold openContour closedFrom
      simp only [List.head?_cons, Option.any_some]
      cases g.curved <;> rfl
    · have h2 := hld.last
      rw [List.getLastD_cons] at h2
      have := closedFrom_draws (PD := PD) g h l hld.chained (by rw [hld.1, h2]; exact hend)
      have ho : openContour (closedFrom g h l : Contour PD) = !true := by
        unfold openContour closedFrom
        simp only [List.head?_cons, Option.any_some]
        cases g.curved <;> rfl
      have hgl : (g :: h :: l).getLast? = some (l.getLastD h) := by
        rw [List.getLast?_cons_cons, List.getLast?_cons, List.getLastD_eq_getLast?]
      rw [and_iff_right ho, this, hgl]
      simp

/-! ## Outlines -/

/-- **C109**, exactly.  Making an outline from a Skia path without loops gives one contour for each contour of
the path that draws anything.  It is open or closed like it, and its segments have the control polygons of the
pieces that the path draws, in order; except exactly those closed contours that begin with a line and are closed
by a curve that is not straight, which lose that curve.  (Coordinates where closed contours begin and end, and
where open ones begin, are numbers; a lone `move_to` is dealt with in `C66_lone_move`.  Conics are approximated by
two quadratics, which is assumed to keep their ends.) -/
theorem C109_exact {conic : ConicToQuads} (hk : KeepsEnds conic) (cs : List SkContour) (hl : ∀ c ∈ cs, ¬ c.isLoop)
    (ho : ∀ c ∈ cs, c.closed = false → c.segs ≠ [])
    (hn : ∀ c ∈ cs, c.start.1.isNaN = false ∧ c.start.2.isNaN = false ∧ c.stop.1.isNaN = false ∧ c.stop.2.isNaN = false) :
    ∃ o : Outline PD, outlineFromSkia conic (cs.flatMap SkContour.els) = .ok o ∧
      List.Forall₂ (fun c d => openContour d = !c.closed ∧ (DrawsPath conic c d ↔ ¬ LineThenCurve conic c))
        (cs.filter fun c => !(c.closed && c.segs.isEmpty)) o := by
  rw [outlineFromSkia_eq]
  induction cs with
  | nil => exact ⟨[], rfl, .nil⟩
  | cons c cs ih =>
    obtain ⟨o, h1, h2⟩ := ih (fun d hd => hl d (List.mem_cons_of_mem _ hd)) (fun d hd => ho d (List.mem_cons_of_mem _ hd))
      (fun d hd => hn d (List.mem_cons_of_mem _ hd))
    have hc := ho c (List.mem_cons_self ..)
    have hcn := hn c (List.mem_cons_self ..)
    rw [seenCubic, if_neg (fun h => hc h.1 h.2.1)]
    by_cases he : (ptsOf c).isEmpty = true
    · rw [if_pos he, List.nil_append]
      have hec := (isEmpty_ptsOf c).1 he
      refine ⟨o, h1, ?_⟩
      rw [List.filter_cons, if_neg]
      · exact h2
      · simp [hec.1, hec.2]
    · rw [if_neg he, List.singleton_append, Out.mapM'_cons]
      have hne := (isEmpty_ptsOf c).not.1 he
      have hd : ∃ d : Contour PD, fromSkContour (cubicsOf conic c) = .ok d ∧ openContour d = (!c.closed) ∧ (DrawsPath conic c d ↔ ¬ LineThenCurve conic c) := by
        cases hcl : c.closed with
        | false =>
          obtain ⟨d, g1, g2⟩ := open_draws (PD := PD) hk c hcl (hc hcl) ⟨hcn.1, hcn.2.1⟩
          have g3 := g2.1
          rw [hcl] at g3
          refine ⟨d, g1, g3, fun _ h => ?_, fun _ => g2⟩
          have := h.1
          rw [hcl] at this
          cases this
        | true => exact closed_draws hk c hcl (fun h => hne ⟨hcl, h⟩) hcn (hl c (List.mem_cons_self ..))
      obtain ⟨d, g1, g2⟩ := hd
      refine ⟨d :: o, ?_, ?_⟩
      · rw [g1, Out.bind_ok, h1]
        rfl
      · rw [List.filter_cons, if_pos]
        · exact .cons g2 h2
        · cases hcl : c.closed with
          | false => rfl
          | true =>
            cases hsg : c.segs with
            | nil => exact absurd ⟨hcl, hsg⟩ hne
            | cons a b => rfl

/-- **C109**, as far as it holds. -/
theorem C109_partial {conic : ConicToQuads} (hk : KeepsEnds conic) (cs : List SkContour) (hl : ∀ c ∈ cs, ¬ c.isLoop)
    (ho : ∀ c ∈ cs, c.closed = false → c.segs ≠ [])
    (hn : ∀ c ∈ cs, c.start.1.isNaN = false ∧ c.start.2.isNaN = false ∧ c.stop.1.isNaN = false ∧ c.stop.2.isNaN = false)
    (hb : ∀ c ∈ cs, ¬ LineThenCurve conic c) :
    ∃ o : Outline PD, outlineFromSkia conic (cs.flatMap SkContour.els) = .ok o ∧
      List.Forall₂ (DrawsPath conic) (cs.filter fun c => !(c.closed && c.segs.isEmpty)) o := by
  obtain ⟨o, h1, h2⟩ := C109_exact (PD := PD) hk cs hl ho hn
  refine ⟨o, h1, ?_⟩
  have hmem : ∀ c ∈ cs.filter (fun c => !(c.closed && c.segs.isEmpty)), ¬ LineThenCurve conic c := fun c hc => hb c (List.mem_filter.1 hc).1
  revert h2 hmem
  generalize cs.filter (fun c => !(c.closed && c.segs.isEmpty)) = k
  clear h1
  intro h2
  induction h2 with
  | nil => intro _; exact .nil
  | cons h _ ih => intro hm; exact .cons (h.2.2 (hm _ (List.mem_cons_self ..))) (ih fun c hc => hm c (List.mem_cons_of_mem _ hc))

/-- The closed path that begins with a line and is closed by a cubic curve. -/
def lineThenCubic : SkContour :=
  ⟨(Flt.zero, Flt.zero), [.line (Flt.ofInt b32 10, Flt.zero), .cubic (Flt.ofInt b32 10, Flt.ofInt b32 10) (Flt.zero, Flt.ofInt b32 10) (Flt.zero, Flt.zero)], true⟩

/-- A path that meets the hypotheses of `C109_partial`: lines, a quadratic and a cubic, open and closed. -/
def twoContours : List SkContour :=
  [⟨(Flt.zero, Flt.zero), [.quad (Flt.ofInt b32 10, Flt.ofInt b32 10) (Flt.ofInt b32 10, Flt.zero), .cubic (Flt.ofInt b32 10, Flt.ofInt b32 10) (Flt.zero, Flt.ofInt b32 10) (Flt.zero, Flt.zero)], true⟩,
   ⟨(Flt.zero, Flt.zero), [.line (Flt.ofInt b32 10, Flt.zero), .quad (Flt.ofInt b32 10, Flt.ofInt b32 10) (Flt.zero, Flt.zero)], false⟩]

/-- **C109 is false of the code**: the curve that closes such a contour is lost. -/
theorem C109_false (conic : ConicToQuads) : ∃ (c : SkContour) (d : Contour Unit), ¬ c.isLoop ∧
    outlineFromSkia conic c.els = .ok [d] ∧ ¬ DrawsPath conic c d := by
  refine ⟨lineThenCubic, _, ?_, rfl, ?_⟩
  · rintro ⟨-, ⟨a, b, p, hg, -⟩ | ⟨b, p, hg, -⟩⟩ <;> cases hg
  · rintro ⟨-, h⟩
    have hs : lineThenCubic.strokes conic = lineThenCubic.strokes fun s c p _ => (s, c, c, c, p) := rfl
    rw [hs] at h
    revert h
    decide +kernel

example : ∃ conic : ConicToQuads, KeepsEnds conic ∧ (∀ c ∈ twoContours, ¬ LineThenCurve conic c ∧ ¬ c.isLoop) ∧
    LineThenCurve conic lineThenCubic := by
  refine ⟨fun s c p _ => (s, c, c, c, p), fun _ _ _ _ => ⟨rfl, rfl⟩, ?_, ?_⟩
  · intro c hc
    rcases List.mem_cons.1 hc with rfl | hc
    · refine ⟨?_, ?_⟩
      · rintro ⟨-, g, hg, h, -, e, -⟩
        cases hg
        cases e
      · rintro ⟨-, ⟨a, b, p, hg, -⟩ | ⟨b, p, hg, -⟩⟩ <;> cases hg
    · cases List.mem_singleton.1 hc
      refine ⟨fun h => (nomatch h.1), fun h => (nomatch h.1)⟩
  · refine ⟨rfl, _, rfl, _, rfl, rfl, rfl, ?_⟩
    rintro ⟨h, -⟩
    revert h
    decide +kernel

end GP
