import Verif.Props.KurboTrip
/-!
# Drawings through kurbo and back, exactly (C118)
-/
open Fl
namespace GP
variable {PD : Type}
open Spec

/-- Where a segment ends. -/
def segStop : PathSeg → F64 × F64
  | .line _ b => b
  | .quad _ _ b => b
  | .cubic _ _ _ b => b

/-- The place of a point. -/
def ptPlace (x : Point PD) : F32 × F32 := placeSingle (pos64 x)

theorem ptPlace_eq (x : Point PD) : ptPlace x = unsignedPt (x.x, x.y) := by
  unfold ptPlace placeSingle pos64 unsignedPt
  simp only [to32_to64]

theorem draws_stop {s : Poly} {g : PathSeg} (h : DrawsSeg s g) : s.unsigned.2.2.2 = placeSingle (segStop g) := by
  cases g with
  | line a b => exact h.2.2.2
  | quad => exact h.elim
  | cubic a c d b =>
    unfold DrawsSeg at h
    rw [h]
    rfl

/-- Whatever draws two lists of segments, they end in the same places. -/
theorem two_drawings {X : List (Point PD × Point PD)} {S W : List PathSeg} (h1 : List.Forall₂ (fun x g => DrawsSeg (polygon x) g) X S)
    (h2 : List.Forall₂ (fun x g => DrawsSeg (polygon x) g) X W) : S.map (placeSingle ∘ segStop) = W.map (placeSingle ∘ segStop) := by
  induction h1 generalizing W with
  | nil => cases h2; rfl
  | cons hx _ ih =>
    cases h2 with
    | cons hy ht =>
      rw [List.map_cons, List.map_cons, ih ht]
      congr 1
      exact (draws_stop hx).symm.trans (draws_stop hy)

theorem wanted_stop (x : Point PD × Point PD) : placeSingle (segStop (wantedSeg x)) = ptPlace x.2 := by
  unfold wantedSeg
  split <;> rfl

/-- Where the element for two points ends. -/
def elPlace (y : Point PD × Point PD) : F32 × F32 := if y.1.ptype = .line then ptPlace y.1 else ptPlace y.2

theorem elsOf_stops (s : F64 × F64) (p : Point PD) (tl : List PathEl) (l : List (Point PD)) : ∀ (x : Point PD) cur, ∃ A cur',
    segsFrom s cur (elsOf x l p ++ tl) = A ++ segsFrom s cur' tl ∧
      A.map (placeSingle ∘ segStop) = ((x :: l).zip (l ++ [p])).map elPlace := by
  have one : ∀ (x y : Point PD) cur tl, ∃ g cur', segsFrom s cur ((opOf (x, y)).pathEl :: tl) = g :: segsFrom s cur' tl ∧
      placeSingle (segStop g) = elPlace (x, y) := by
    intro x y cur tl
    unfold elPlace
    by_cases h : x.ptype = .line
    · rw [opOf_line h, if_pos h]
      exact ⟨_, _, rfl, rfl⟩
    · rw [opOf_curve h, if_neg h]
      exact ⟨_, _, rfl, rfl⟩
  induction l with
  | nil =>
    intro x cur
    obtain ⟨g, cur', h1, h2⟩ := one x p cur tl
    exact ⟨[g], cur', h1, by simp [h2]⟩
  | cons y l ih =>
    intro x cur
    obtain ⟨g, cur', h1, h2⟩ := one x y cur (elsOf y l p ++ tl)
    obtain ⟨A, cur'', h3, h4⟩ := ih y cur'
    refine ⟨g :: A, cur'', ?_, ?_⟩
    · rw [elsOf_cons, List.cons_append, h1, h3]
      rfl
    · rw [List.map_cons, h4, List.cons_append, List.zip_cons_cons, List.map_cons, ← h2]
      rfl

theorem zip_differ {α β : Type} (f : α → β) (p : α) (l : List α) : ∀ x, ((x :: l ++ [p]).map f).Nodup →
    ∀ y ∈ (x :: l).zip (l ++ [p]), f y.1 ≠ f y.2 := by
  induction l with
  | nil =>
    intro x h y hy
    simp only [List.nil_append, List.zip_cons_cons, List.zip_nil_right, List.mem_singleton] at hy
    subst hy
    simpa using h
  | cons w l ih =>
    intro x h y hy
    simp only [List.cons_append, List.zip_cons_cons] at hy
    rcases List.mem_cons.1 hy with rfl | hy
    · simp only [List.cons_append, List.map_cons, List.nodup_cons, List.mem_cons, not_or] at h
      exact h.1.1
    · refine ih w ?_ y (by simpa using hy)
      simp only [List.cons_append, List.map_cons, List.nodup_cons] at h ⊢
      exact h.2

/-- The curve that is written for two points. -/
def curveOf (y : Point PD × Point PD) : PathSeg := .cubic (pos64 y.1) (handlePos y.1.a y.1) (handlePos y.2.b y.2) (pos64 y.2)

theorem curves_drawn (s : F64 × F64) (p : Point PD) (tl : List PathEl) (l : List (Point PD)) : ∀ x : Point PD, (∀ y ∈ x :: l, y.ptype ≠ .line) →
    segsFrom s (pos64 x) (elsOf x l p ++ tl) = ((x :: l).zip (l ++ [p])).map curveOf ++ segsFrom s (pos64 p) tl := by
  induction l with
  | nil =>
    intro x h
    rw [elsOf_nil, opOf_curve (h x (by simp))]
    rfl
  | cons y l ih =>
    intro x h
    rw [elsOf_cons, opOf_curve (h x (by simp)), List.cons_append, segsFrom, ih y fun w hw => h w (List.mem_cons_of_mem _ hw)]
    rfl

/-- What draws the curve written for two points draws their segment, even if it is straight. -/
theorem draws_wanted {s : Poly} {y : Point PD × Point PD} (h1 : Tidy y.1) (h2 : Tidy y.2) (h : DrawsSeg s (curveOf y)) : DrawsSeg s (wantedSeg y) := by
  by_cases hs : StraightSeg y
  · rw [wanted_straight hs]
    unfold curveOf DrawsSeg at h
    unfold StraightSeg at hs
    rw [h1.1, h2.2] at hs
    rw [hs.1, hs.2] at h
    unfold DrawsSeg
    rw [h]
    exact ⟨rfl, .inl rfl, .inr rfl, rfl⟩
  · rw [wanted_curved hs h1 h2]
    exact h

theorem elsOf_lines (p : Point PD) (l : List (Point PD)) : ∀ x : Point PD, (∀ y ∈ x :: l, y.ptype = .line) →
    elsOf x l p = ((x :: l).map fun y => KSeg.line (pos64 y)).map KSeg.el := by
  induction l with
  | nil =>
    intro x h
    rw [elsOf_nil, opOf_line (h x (by simp))]
    rfl
  | cons y l ih =>
    intro x h
    rw [elsOf_cons, opOf_line (h x (by simp)), ih y fun w hw => h w (List.mem_cons_of_mem _ hw)]
    rfl

theorem segsOnly_lines (l : List (Point PD)) : ∀ z : Point PD,
    segsOnly (pos64 z) (l.map fun y => KSeg.line (pos64 y)) = ((z :: l).zip l).map fun y => .line (pos64 y.1) (pos64 y.2) := by
  induction l with
  | nil => intro z; rfl
  | cons x l ih =>
    intro z
    rw [List.map_cons, segsOnly, ih x, inSingle_pos64, inSingle_pos64]
    rfl

theorem typedFrom_lines (l : List (Point PD)) : ∀ z : Point PD, TypedFrom z l →
    (((∀ y ∈ l, y.ptype = .line) ↔ ∀ y ∈ (z :: l).zip l, StraightSeg y) ∧ ((∀ y ∈ l, y.ptype ≠ .line) ↔ ∀ y ∈ (z :: l).zip l, ¬ StraightSeg y)) := by
  induction l with
  | nil => intro z _; simp
  | cons x l ih =>
    intro z h
    rw [List.zip_cons_cons, List.forall_mem_cons, List.forall_mem_cons, List.forall_mem_cons, List.forall_mem_cons, (ih x h.2).1, (ih x h.2).2, h.1, ne_eq, h.1]
    exact ⟨Iff.rfl, Iff.rfl⟩

/-- The last segment of a contour that comes from a subpath that closes with a line. -/
theorem closed_last (c : KSub) (hc : c.closed = true) (hs : c.segs ≠ []) (hm : samePlace (inSingle c.stop) (inSingle c.start) = false) :
    ∃ (X : List (Point PD × Point PD)) (y : Point PD × Point PD), closedPairs (mergeEnds (kFirst c :: kPoints (kFin c) c.segs) : Contour PD) = X ++ [y] ∧
      (polygon y).unsigned = (placeSingle c.stop, placeSingle c.start, placeSingle c.start, placeSingle c.start) := by
  obtain ⟨mid, last, h1, h2, h3, h4, h5⟩ := kPoints_last (PD := PD) (kFin c) c.segs hs c.start
  have hfin : kFin c = .at c.start.1.to32 c.start.2.to32 := by unfold kFin; rw [if_pos hc]
  have hfirst : (kFirst c : Point PD) = { x := c.start.1.to32, y := c.start.2.to32, a := outHandle (kFin c) c.segs, b := kFin c, ptype := .curve } := by
    unfold kFirst
    rw [hfin, if_pos hc]
  have hsame : samePlace (inSingle c.stop) (inSingle c.start) = (last.x.feq (kFirst c : Point PD).x && last.y.feq (kFirst c : Point PD).y) := by
    rw [samePlace_inSingle, h2, h3, hfirst]
    rfl
  rw [h1, mergeEnds_concat, ← hsame, hm, if_neg (by simp), closedPairs_any]
  refine ⟨_, _, rfl, ?_⟩
  rw [List.getLastD_concat]
  have hk : (kFirst c : Point PD).ptype = .curve := by rw [hfirst]
  unfold polygon
  simp only [hk, if_true, segment]
  rw [unsigned_eq]
  simp only [Prod.mk.injEq]
  refine ⟨?_, ?_, ?_, ?_⟩
  · show unsignedPt (last.x, last.y) = _
    rw [h2, h3]
    rfl
  · show unsignedPt (outPos last) = _
    unfold outPos
    rw [h4, hfin]
    rfl
  · show unsignedPt (inPos (kFirst c)) = _
    unfold inPos
    rw [hfirst, hfin]
    rfl
  · show unsignedPt (_, _) = _
    rw [hfirst]
    rfl

theorem kels_inj {k k' : KSub} (h1 : k.closed = true) (h2 : k'.closed = true) (h : k.els = k'.els) : k = k' := by
  obtain ⟨s, g, c⟩ := k
  obtain ⟨s', g', c'⟩ := k'
  cases h1
  cases h2
  unfold KSub.els at h
  simp only [if_true, List.cons.injEq, PathEl.moveTo.injEq, List.append_left_inj] at h
  have inj : Function.Injective KSeg.el := by
    intro a b h
    cases a <;> cases b <;> cases h <;> rfl
  rw [h.1, inj.list_map h.2]

/-- The first point of a refigured closed contour. -/
theorem refigure_first {p q p' q' : Point PD} {rest rest' : Contour PD} (hp : p.ptype ≠ .move) (hr : refigure (p :: q :: rest) = p' :: q' :: rest') :
    p'.ptype = .line ↔ (rest.getLastD q).a = .colocated ∧ settle p.b p = .colocated := by
  rw [C30_result, refigured, if_neg hp] at hr
  injection hr with hr _
  rw [← hr]
  have hcl : closing (p :: q :: rest) = (rest.getLastD q).a := by
    unfold closing
    rw [List.getLast?_cons_cons, List.getLast?_cons]
    simp only [List.getLastD_eq_getLast?]
  show typeByHandles (closing (p :: q :: rest)) (settle p.b p) = .line ↔ _
  rw [hcl]
  unfold typeByHandles
  split
  · rename_i h; exact ⟨fun _ => h, fun _ => rfl⟩
  · rename_i h; exact ⟨fun e => (nomatch e), fun e => absurd e h⟩

theorem forall₂_concat {α β : Type} {R : α → β → Prop} {a : α} {b : β} : ∀ (l : List α) (m : List β),
    List.Forall₂ R (l ++ [a]) (m ++ [b]) ↔ List.Forall₂ R l m ∧ R a b := by
  intro l
  induction l with
  | nil =>
    intro m
    cases m with
    | nil => simp
    | cons y m =>
      simp only [List.nil_append, List.cons_append, List.forall₂_cons, List.forall₂_nil_left_iff, List.append_eq_nil_iff, List.cons_ne_self, and_false,
        reduceCtorEq, false_and]
  | cons x l ih =>
    intro m
    cases m with
    | nil => simp [List.forall₂_nil_right_iff]
    | cons y m => simp only [List.cons_append, List.forall₂_cons, ih, and_assoc]

theorem forall₂_right {α β : Type} {R R' : α → β → Prop} {l : List α} {m : List β} (h : List.Forall₂ R l m)
    (hr : ∀ y ∈ m, ∀ x, R x y → R' x y) : List.Forall₂ R' l m := by
  induction h with
  | nil => exact .nil
  | cons hx _ ih => exact .cons (hr _ (List.mem_cons_self ..) _ hx) (ih fun y hy => hr y (List.mem_cons_of_mem _ hy))

theorem drawsSeg_unsigned {s s' : Poly} (h : s.unsigned = s'.unsigned) (g : PathSeg) : DrawsSeg s g ↔ DrawsSeg s' g := by
  cases g <;> simp only [DrawsSeg, h]

/-- **C118** for a contour. -/
theorem kept_sub (p q : Point PD) (rest : Contour PD) (hp : p.ptype ≠ .move) (hx : p.x.isNaN = false) (hy : p.y.isNaN = false)
    (hn : ((p :: q :: rest).map fun x => (x.x.normZero, x.y.normZero)).Nodup) :
    ∃ k : KSub, contourIntoKurbo (p :: q :: rest) = .ok k.els ∧ k.closed = true ∧ k.segs ≠ [] ∧
      (SameLinesAndCurves (p :: q :: rest) (mergeEnds (kFirst k :: kPoints (kFin k) k.segs) : Contour PD) ↔ KeptByKurbo p q rest) := by
  have hc := closed_of p q rest hp
  obtain ⟨k, h1, h2, h3, h4⟩ := kurbo_sub hc
  refine ⟨k, h1, h2, h3, ?_⟩
  obtain ⟨p', q', rest', hr, hti, ht, hk, hw⟩ := closed_setting hc
  rw [h1, Out.ok.injEq] at hk
  obtain ⟨ho, S, hS, hdS⟩ := closed_sub (PD := PD) k h2 h3
  rw [h2] at ho hdS
  rw [if_pos rfl] at hdS
  rw [h4] at hS
  have hpos := refigure_pos (p :: q :: rest)
  rw [hr] at hpos
  have hpl : ((p' :: q' :: rest').map ptPlace).Nodup := by
    have e : (p' :: q' :: rest').map ptPlace = (p :: q :: rest).map fun x => (x.x.normZero, x.y.normZero) := by
      have := congrArg (List.map placeSingle) hpos
      rw [List.map_map, List.map_map] at this
      exact this.trans (List.map_congr_left fun x _ => ptPlace_eq x)
    rw [e]
    exact hn
  have hpl' : ((q' :: rest' ++ [p']).map ptPlace).Nodup := by
    refine (List.Perm.nodup_iff ?_).1 hpl
    rw [List.map_append]
    exact (List.perm_append_singleton _ _).symm
  have hopen := mem_pairs_wanted (wanted_refigure_open (p :: q :: rest))
  rw [hr] at hopen
  have hlast := typedFrom_lines _ _ ht
  unfold SameLinesAndCurves
  rw [hw]
  simp only [ho, Bool.not_true, true_and]
  have hkept : KeptByKurbo p q rest ↔ ((∀ y ∈ p' :: q' :: rest', y.ptype ≠ .line) ∨
      (∀ y ∈ q' :: rest', y.ptype = .line) ∧ DrawsSeg (((rest.getLastD q).x, (rest.getLastD q).y), (p.x, p.y), (p.x, p.y), (p.x, p.y)) (wantedSeg (rest.getLastD q, p))) := by
    unfold KeptByKurbo
    simp only
    rw [← hopen.1, ← hopen.2, ← refigure_first hp hr, List.forall_mem_cons, hlast.1, hlast.2]
    exact or_congr and_comm Iff.rfl
  have hstops : (((p' :: q' :: rest').zip (q' :: rest' ++ [p'])).map wantedSeg).map (placeSingle ∘ segStop) = (q' :: rest' ++ [p']).map ptPlace := by
    have : (placeSingle ∘ segStop) ∘ wantedSeg = ptPlace ∘ (Prod.snd : Point PD × Point PD → Point PD) := funext wanted_stop
    rw [List.map_map, this, ← List.map_map, List.map_snd_zip (by simp)]
  rw [hkept]
  by_cases hq : q'.ptype = .line
  · have hno : ¬ ∀ y ∈ p' :: q' :: rest', y.ptype ≠ .line := fun h => h q' (by simp) hq
    rw [or_iff_right hno]
    rw [hk, if_pos hq, List.nil_append] at hS
    simp only [drawnBy, Option.some.injEq] at hS
    have lines : (∀ y ∈ q' :: rest', y.ptype = .line) → (List.Forall₂ (fun x g => DrawsSeg (polygon x) g)
        (closedPairs (mergeEnds (kFirst k :: kPoints (kFin k) k.segs) : Contour PD)) (((p' :: q' :: rest').zip (q' :: rest' ++ [p'])).map wantedSeg) ↔
        DrawsSeg (((rest.getLastD q).x, (rest.getLastD q).y), (p.x, p.y), (p.x, p.y), (p.x, p.y)) (wantedSeg (rest.getLastD q, p))) := by
      intro hl
      have hwz : wantedSeg (rest'.getLastD q', p') = wantedSeg (rest.getLastD q, p) := by
        have e : closedPairs (p' :: q' :: rest') = (p' :: q' :: rest').zip (q' :: rest' ++ [p']) := rfl
        rw [← e, closedPairs_any, closedPairs_any, List.map_append, List.map_append, List.getLastD_cons, List.getLastD_cons] at hw
        simpa using (List.append_inj' hw rfl).2.symm
      have hpz : pos64 (rest'.getLastD q') = pos64 (rest.getLastD q) := by
        have := congrArg List.getLast? hpos
        rw [List.getLast?_map, List.getLast?_map] at this
        simpa [List.getLast?_cons] using this
      have hk2 : k = ⟨pos64 p', (q' :: rest').map fun y => KSeg.line (pos64 y), true⟩ := by
        refine kels_inj h2 rfl ?_
        rw [hk, if_pos hq, List.nil_append, elsOf_lines _ _ _ hl]
        rfl
      have hstop : k.stop = pos64 (rest'.getLastD q') := by
        rw [hk2]
        unfold KSub.stop
        simp only [List.map_map, List.map_cons, List.getLastD_cons]
        have : KSeg.stop ∘ (fun y : Point PD => KSeg.line (pos64 y)) = pos64 := rfl
        rw [this, List.getLastD_eq_getLast?, List.getLast?_map, List.getLastD_eq_getLast?]
        show _ = pos64 (rest'.getLast?.getD q')
        cases rest'.getLast? <;> rfl
      have hstart : k.start = pos64 p' := by rw [hk2]
      have hz : rest'.getLastD q' ∈ q' :: rest' := by
        rw [List.getLastD_eq_getLast?]
        cases e : rest'.getLast? with
        | none => exact List.mem_cons_self ..
        | some z => exact List.mem_cons_of_mem _ (List.mem_of_getLast? e)
      have hm : samePlace (inSingle k.stop) (inSingle k.start) = false := by
        by_contra h
        rw [Bool.not_eq_false] at h
        have := placeSingle_same h
        rw [hstop, hstart] at this
        rw [List.map_cons, List.nodup_cons] at hpl
        refine hpl.1 ?_
        have e : ptPlace (rest'.getLastD q') = ptPlace p' := this
        rw [← e]
        exact List.mem_map_of_mem hz
      obtain ⟨X, y, hX, hyp⟩ := closed_last (PD := PD) k h2 h3 hm
      have hS' : drawnBy k.els = some (((p' :: q' :: rest').zip (q' :: rest')).map wantedSeg ++ [.line (pos64 (rest'.getLastD q')) (pos64 p')]) := by
        rw [← h4, drawnBy_sub, if_pos ⟨h2, hm⟩, hstop, hstart, inSingle_pos64, inSingle_pos64]
        congr 2
        rw [hk2]
        rw [segsOnly_lines]
        exact List.map_congr_left fun y hy => (wanted_straight (hlast.1.1 hl y hy)).symm
      have hSS : S = ((p' :: q' :: rest').zip (q' :: rest')).map wantedSeg ++ [.line (pos64 (rest'.getLastD q')) (pos64 p')] := by
        rw [hk, if_pos hq, List.nil_append] at hS'
        simp only [drawnBy, Option.some.injEq] at hS'
        rw [← hS, hS']
      have hW : ((p' :: q' :: rest').zip (q' :: rest' ++ [p'])).map wantedSeg =
          ((p' :: q' :: rest').zip (q' :: rest')).map wantedSeg ++ [wantedSeg (rest'.getLastD q', p')] := by
        have e : closedPairs (p' :: q' :: rest') = (p' :: q' :: rest').zip (q' :: rest' ++ [p']) := rfl
        rw [← e, closedPairs_any, List.map_append, List.getLastD_cons]
        rfl
      rw [hX, hSS, forall₂_concat] at hdS
      rw [hX, hW, forall₂_concat, and_iff_right hdS.1, hwz]
      refine drawsSeg_unsigned ?_ _
      rw [hyp, hstop, hstart, hpz, (List.cons.inj hpos).1]
      show (ptPlace _, ptPlace _, ptPlace _, ptPlace _) = _
      simp only [ptPlace_eq]
      rfl
    constructor
    · intro hW
      have hl : ∀ y ∈ q' :: rest', y.ptype = .line := by
        have e := two_drawings hdS hW
        obtain ⟨A, cur, hA, hA'⟩ := elsOf_stops (pos64 p') p' [.closePath] rest' q' (pos64 p')
        rw [hstops, ← hS, hA, List.map_append, hA', List.map_append] at e
        have e := (List.append_inj e (by simp)).1
        have hf : (q' :: rest').map ptPlace = ((q' :: rest').zip (rest' ++ [p'])).map (ptPlace ∘ Prod.fst) := by
          rw [← List.map_map, List.map_fst_zip (by simp)]
        rw [hf] at e
        intro y hy
        have : y ∈ ((q' :: rest').zip (rest' ++ [p'])).map Prod.fst := by
          rw [List.map_fst_zip (by simp)]
          exact hy
        obtain ⟨w, hw, rfl⟩ := List.mem_map.1 this
        have := List.map_inj_left.1 e w hw
        by_contra hy
        unfold elPlace at this
        rw [if_neg hy] at this
        exact zip_differ ptPlace p' rest' q' hpl' w hw this.symm
      exact ⟨hl, (lines hl).1 hW⟩
    · rintro ⟨hl, h⟩
      exact (lines hl).2 h
  · have hno : ¬ ((∀ y ∈ q' :: rest', y.ptype = .line) ∧ DrawsSeg (((rest.getLastD q).x, (rest.getLastD q).y), (p.x, p.y), (p.x, p.y), (p.x, p.y)) (wantedSeg (rest.getLastD q, p))) :=
      fun h => hq (h.1 q' (by simp))
    rw [or_iff_left hno]
    rw [hk, if_neg hq] at hS
    have e : [(opOf (p', q')).pathEl] ++ elsOf q' rest' p' ++ [PathEl.closePath] = elsOf p' (q' :: rest') p' ++ [.closePath] := rfl
    rw [e] at hS
    simp only [drawnBy, Option.some.injEq] at hS
    constructor
    · intro hW
      have e := two_drawings hdS hW
      obtain ⟨A, cur, hA, hA'⟩ := elsOf_stops (pos64 p') p' [.closePath] (q' :: rest') p' (pos64 p')
      rw [hstops, ← hS, hA, List.map_append, hA'] at e
      have e := (List.append_inj (s₁ := (q' :: rest' ++ [p']).map ptPlace) (t₁ := []) (by rw [e, List.append_nil]) (by simp)).1
      have hf : (q' :: rest' ++ [p']).map ptPlace = ((p' :: q' :: rest').zip (q' :: rest' ++ [p'])).map (ptPlace ∘ Prod.snd) := by
        rw [← List.map_map, List.map_snd_zip (by simp)]
      rw [hf] at e
      intro y hy hl
      have : y ∈ ((p' :: q' :: rest').zip (q' :: rest' ++ [p'])).map Prod.fst := by
        rw [List.map_fst_zip (by simp)]
        exact hy
      obtain ⟨w, hw, rfl⟩ := List.mem_map.1 this
      have := List.map_inj_left.1 e w hw
      unfold elPlace at this
      rw [if_pos hl] at this
      rw [List.cons_append, List.zip_cons_cons] at hw
      rcases List.mem_cons.1 hw with rfl | hw
      · simp only [List.map_cons, List.nodup_cons, List.mem_cons, not_or] at hpl
        exact hpl.1.1 this.symm
      · exact zip_differ ptPlace p' rest' q' hpl' w hw this.symm
    · intro hl
      rw [curves_drawn _ _ _ _ _ hl] at hS
      have hs : samePlace (pos64 p') (pos64 p') = true := by
        rw [(List.cons.inj hpos).1]
        unfold samePlace pos64
        rw [feq_refl (by rw [to64_isNaN]; exact hx), feq_refl (by rw [to64_isNaN]; exact hy)]
        rfl
      simp only [segsFrom, hs, if_true, List.append_nil] at hS
      rw [← hS, List.forall₂_map_right_iff] at hdS
      rw [List.forall₂_map_right_iff]
      refine forall₂_right hdS fun y hy x h => ?_
      obtain ⟨m1, m2⟩ := List.of_mem_zip (a := y.1) (b := y.2) hy
      refine draws_wanted (hti _ m1) (hti _ ?_) h
      rcases List.mem_append.1 m2 with m2 | m2
      · exact List.mem_cons_of_mem _ m2
      · rw [List.mem_singleton.1 m2]
        exact List.mem_cons_self ..

/-- **C118** for outlines of closed contours whose points are in different places, exactly: the contours that come back
from kurbo draw the same lines and curves if and only if they are `KeptByKurbo`: all curves or all lines, but for the
segment that closes the contour. -/
theorem C118_exact (o : Outline PD) (hne : o ≠ []) (h : ∀ c ∈ o, PlainClosed c) :
    ∃ els o', outlineIntoKurbo o = .ok els ∧ (outlineFromKurbo els : R (Outline PD)) = .ok o' ∧
      List.Forall₂ (fun c d => SameLinesAndCurves c d ↔ ∃ p q rest, c = p :: q :: rest ∧ KeptByKurbo p q rest) o o' := by
  obtain ⟨ks, h1, h2⟩ : ∃ ks : List KSub, outlineIntoKurbo o = .ok (ks.flatMap KSub.els) ∧
      List.Forall₂ (fun c (k : KSub) => k.segs ≠ [] ∧ (SameLinesAndCurves c (mergeEnds (kFirst k :: kPoints (kFin k) k.segs) : Contour PD) ↔
        ∃ p q rest, c = p :: q :: rest ∧ KeptByKurbo p q rest)) o ks := by
    clear hne
    induction o with
    | nil => exact ⟨[], rfl, .nil⟩
    | cons c o ih =>
      obtain ⟨ks, h1, h2⟩ := ih fun d hd => h d (List.mem_cons_of_mem _ hd)
      obtain ⟨p, q, rest, rfl, hp, hx, hy, hn⟩ := h c (List.mem_cons_self ..)
      obtain ⟨k, h3, -, h4, h5⟩ := kept_sub p q rest hp hx hy hn
      refine ⟨k :: ks, ?_, .cons ⟨h4, h5.trans ⟨fun h => ⟨_, _, _, rfl, h⟩, ?_⟩⟩ h2⟩
      · rw [outlineIntoKurbo, h3, h1]
        rfl
      · rintro ⟨p', q', rest', e, h⟩
        cases e
        exact h
  have hlen : 2 ≤ (ks.flatMap KSub.els).length := by
    cases h2 with
    | nil => exact absurd rfl hne
    | @cons c k o ks hk _ =>
      rw [List.flatMap_cons, List.length_append]
      have := List.length_pos_iff.2 hk.1
      simp only [KSub.els, List.length_cons, List.length_append, List.length_map]
      omega
  refine ⟨_, _, h1, outlineFromKurbo_subs ks hlen, ?_⟩
  rw [List.forall₂_map_right_iff]
  exact h2.imp fun _ _ hx => hx.2

example : PlainClosed kMixed := ⟨_, _, _, rfl, by decide, by decide, by decide, by decide +kernel⟩
example : PlainClosed kLines := ⟨_, _, _, rfl, by decide, by decide, by decide, by decide +kernel⟩

/-- A contour of curves that a line closes, of which a handle is stored on the last point. -/
def kStored : Contour Unit :=
  [{ x := Flt.ofInt b32 0, y := Flt.ofInt b32 0, a := .at (Flt.ofInt b32 1) (Flt.ofInt b32 2), ptype := .curve },
   { x := Flt.ofInt b32 5, y := Flt.ofInt b32 0, a := .at (Flt.ofInt b32 5) (Flt.ofInt b32 0), ptype := .curve }]

/-- A contour of lines that is closed by a curve with its control points where the contour starts. -/
def kToStart : Contour Unit :=
  [{ x := Flt.ofInt b32 0, y := Flt.ofInt b32 0, ptype := .curve }, { x := Flt.ofInt b32 5, y := Flt.ofInt b32 0, ptype := .line },
   { x := Flt.ofInt b32 0, y := Flt.ofInt b32 5, a := .at (Flt.ofInt b32 0) (Flt.ofInt b32 0), ptype := .line }]

example : ∀ c ∈ [kStored, kToStart], PlainClosed c := by
  intro c hc
  rcases List.mem_cons.1 hc with rfl | hc
  · exact ⟨_, _, _, rfl, by decide, by decide, by decide, by decide +kernel⟩
  · rw [List.mem_singleton.1 hc]
    exact ⟨_, _, _, rfl, by decide, by decide, by decide, by decide +kernel⟩

example : ∀ c ∈ [kStored, kToStart], ∃ p q rest, c = p :: q :: rest ∧ KeptByKurbo p q rest := by
  intro c hc
  rcases List.mem_cons.1 hc with rfl | hc
  · exact ⟨_, _, _, rfl, .inl (by decide +kernel)⟩
  · rw [List.mem_singleton.1 hc]
    refine ⟨_, _, _, rfl, .inr ⟨by decide +kernel, ?_⟩⟩
    decide +kernel

end GP
