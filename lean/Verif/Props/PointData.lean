import Verif.Spec.PointData
import Verif.Model.Files
import Verif.Model.Skia
import Verif.Model.PenOps
/-!
# C138: point data is carried along and never looked at
-/
open Fl
namespace GP
open Spec
variable {PD PD' D : Type}

theorem outMap_bind {ε α β γ δ : Type} {x : Out ε α} {x' : Out ε β} {h : α → β} {k : α → Out ε γ} {k' : β → Out ε δ} {f : γ → δ}
    (hx : x' = outMap h x) (hk : ∀ a, k' (h a) = outMap f (k a)) : (x' >>= k') = outMap f (x >>= k) := by
  subst hx
  cases x with
  | ok a => exact hk a
  | err e => rfl
  | panic => rfl

theorem outMap_same {ε α γ δ : Type} {x : Out ε α} {k : α → Out ε γ} {k' : α → Out ε δ} {f : γ → δ}
    (hk : ∀ a, k' a = outMap f (k a)) : (x >>= k') = outMap f (x >>= k) :=
  outMap_bind (h := id) (by cases x <;> rfl) hk

theorem outMap_mapM {ε α β γ δ : Type} {h : α → β} {k : α → Out ε γ} {k' : β → Out ε δ} {f : γ → δ} (hk : ∀ a, k' (h a) = outMap f (k a))
    (l : List α) : Out.mapM' k' (l.map h) = outMap (List.map f) (Out.mapM' k l) := by
  induction l with
  | nil => rfl
  | cons a l ih => exact outMap_bind (hk a) fun b => outMap_bind ih fun bs => rfl

theorem mapM_data {ε α β γ : Type} {h : α → β} {k : α → Out ε γ} {k' : β → Out ε γ} (hk : ∀ a, k' (h a) = k a)
    (l : List α) : Out.mapM' k' (l.map h) = Out.mapM' k l := by
  induction l with
  | nil => rfl
  | cons a l ih => simp only [List.map_cons, Out.mapM', hk, ih]

/-! ## Writing -/

theorem intoGlifpoints_data (f : PD → Option PD') (c : Contour PD) : intoGlifpoints (contourWithData f c) = intoGlifpoints c := by
  unfold intoGlifpoints contourWithData
  simp only [List.isEmpty_map, List.map_map]
  rfl

/-- **C138.** What is written for a glyph does not depend on its point data. -/
theorem C138_write (pio : PlistIO D) (xml : XmlIO) (f : PD → Option PD') (g : Glif PD D) :
    glifXml pio (glifWithData f g) = glifXml pio g ∧ writeText pio xml (glifWithData f g) = writeText pio xml g := by
  have h : glifXml pio (glifWithData f g) = glifXml pio g := by
    unfold glifXml glifWithData
    cases g.outline with
    | none => rfl
    | some o =>
      have : outlineXml (outlineWithData f o) = outlineXml o := by
        have hc : ∀ c : Contour PD, contourXml (contourWithData f c) = contourXml c := fun c => by
          unfold contourXml; rw [intoGlifpoints_data]
        unfold outlineXml outlineWithData
        rw [mapM_data hc]
      simp only [Option.map_some, this]
  exact ⟨h, by unfold writeText; rw [h]⟩

/-! ## Reading -/

theorem modLast_commute {α β : Type} {h : α → β} {k : α → α} {k' : β → β} (hk : ∀ a, k' (h a) = h (k a)) (l : List α) :
    modLast k' (l.map h) = (modLast k l).map h := by
  match l with
  | [] => rfl
  | [a] => exact congrArg (fun b => [b]) (hk a)
  | a :: b :: l => exact congrArg (h a :: ·) (modLast_commute hk (b :: l))

theorem quadStep_data (mid : IOF → IOF → IOF) (f : PD → Option PD') (st : Contour PD × List GlifPoint) (gp : GlifPoint) :
    quadStep mid (contourWithData f st.1, st.2) gp =
      (contourWithData f (quadStep mid st gp).1, (quadStep mid st gp).2) := by
  unfold quadStep
  simp only []
  split
  · simp only [contourWithData, List.map_append]; rfl
  · split
    · split
      · simp only [contourWithData, List.map_append]; rfl
      · simp only [contourWithData, List.map_append]; rfl
    · rfl

theorem quadraticContour_data (mid : IOF → IOF → IOF) (f : PD → Option PD') (gc : GlifContour) :
    (quadraticContour mid gc : Contour PD') = contourWithData f (quadraticContour mid gc) := by
  have key : ∀ (gc : GlifContour) (st : Contour PD × List GlifPoint),
      gc.foldl (quadStep mid) (contourWithData f st.1, st.2) =
        (contourWithData f (gc.foldl (quadStep mid) st).1, (gc.foldl (quadStep mid) st).2) := by
    intro gc
    induction gc with
    | nil => intro st; rfl
    | cons gp gc ih =>
      intro st
      rw [List.foldl_cons, List.foldl_cons, quadStep_data, ih]
  have k := key gc ([], [])
  unfold quadraticContour
  rw [show (([], []) : Contour PD' × List GlifPoint) = (contourWithData f [], []) from rfl, k]
  simp only []
  generalize gc.foldl (quadStep mid) (([], []) : Contour PD × List GlifPoint) = r
  obtain ⟨c, st⟩ := r
  cases st with
  | nil => rfl
  | cons h1 st =>
    cases c with
    | nil => rfl
    | cons h2 c =>
      simp only [contourWithData, List.map_cons, List.map_append]
      rfl

theorem cubicStep_data (f : PD → Option PD') (st : Contour PD × List GlifPoint) (gp : GlifPoint) :
    cubicStep (contourWithData f st.1, st.2) gp = outMap (fun r => (contourWithData f r.1, r.2)) (cubicStep st gp) := by
  unfold cubicStep
  cases gp.ptype <;> first
    | rfl
    | (simp only [outMap, contourWithData, List.map_append]
       rw [modLast_commute (h := withData f) (k := fun p : Point PD => { p with a := Handle.ofGlifPoint st.2.head? }) fun a => rfl]
       rfl)

theorem cubicContour_data (f : PD → Option PD') (gc : GlifContour) :
    (cubicContour gc : R (Contour PD')) = outMap (contourWithData f) (cubicContour gc) := by
  have key : ∀ (gc : GlifContour) (st : Contour PD × List GlifPoint),
      foldR cubicStep (contourWithData f st.1, st.2) gc =
        outMap (fun r => (contourWithData f r.1, r.2)) (foldR cubicStep st gc) := by
    intro gc
    induction gc with
    | nil => intro st; rfl
    | cons gp gc ih =>
      intro st
      exact outMap_bind (cubicStep_data f st gp) fun r => ih r
  unfold cubicContour
  refine outMap_bind (h := fun r : Contour PD × List GlifPoint => (contourWithData f r.1, r.2)) (key gc ([], [])) fun r => ?_
  obtain ⟨c, st⟩ := r
  simp only [contourWithData]
  rw [modLast_commute (h := withData f) (k := fun p : Point PD => { p with a := Handle.ofGlifPoint st.head? }) fun a => rfl]
  cases modLast (fun p : Point PD => { p with a := Handle.ofGlifPoint st.head? }) c with
  | nil => rfl
  | cons p rest =>
    simp only [List.map_cons]
    have hp : (withData f p).ptype = p.ptype := rfl
    rw [hp]
    by_cases h : p.ptype ≠ .move
    · rw [if_pos h, if_pos h]
      cases rest with
      | nil =>
        have h' : ¬ p.ptype = .move := h
        simp only [List.map_nil, hp, if_neg h', outMap, List.map_cons]
        rfl
      | cons q rest => rfl
    · rw [if_neg h, if_neg h]
      cases rest with
      | nil =>
        have h' : p.ptype = .move := Decidable.not_not.1 h
        simp only [List.map_nil, hp, if_pos h', outMap]
        rfl
      | cons q rest => rfl

theorem outlineOfGlif_data (mid : IOF → IOF → IOF) (f : PD → Option PD') (gcs : List GlifContour) :
    (outlineOfGlif mid gcs : R (Outline PD')) = outMap (outlineWithData f) (outlineOfGlif mid gcs) := by
  have hc : ∀ gc, (contourOfGlif mid gc : R (Contour PD')) = outMap (contourWithData f) (contourOfGlif mid gc) := by
    intro gc
    unfold contourOfGlif
    cases gc with
    | nil => rfl
    | cons p gc =>
      simp only []
      split
      · exact cubicContour_data f _
      · exact cubicContour_data f _
      · exact cubicContour_data f _
      · exact congrArg Out.ok (quadraticContour_data mid f _)
      · exact congrArg Out.ok (quadraticContour_data mid f _)
      · rfl
  unfold outlineOfGlif
  have := outMap_mapM (h := id) hc gcs
  rw [List.map_id] at this
  refine outMap_bind this fun cs => ?_
  simp only [outMap, outlineWithData, List.filter_map]
  congr 2
  apply List.filter_congr
  intro c _
  simp [contourWithData]

/-- **C138.** What is read from a file does not depend on the kind of point data that the program has: there is none. -/
theorem C138_read (mid : IOF → IOF → IOF) (pio : PlistIO D) (xml : XmlIO) (ped : Pedantry) (f : PD → Option PD') :
    (∀ e, (readGlif mid pio ped e : R (Glif PD' D)) = outMap (glifWithData f) (readGlif mid pio ped e)) ∧
      ∀ s, (readText mid pio xml ped s : R (Glif PD' D)) = outMap (glifWithData f) (readText mid pio xml ped s) := by
  have h : ∀ e, (readGlif mid pio ped e : R (Glif PD' D)) = outMap (glifWithData f) (readGlif mid pio ped e) := by
    intro e
    unfold readGlif
    split
    · rfl
    refine outMap_same fun format => ?_
    split
    · rfl
    refine outMap_same fun name => outMap_same fun width => outMap_same fun u => outMap_same fun a => outMap_same fun i =>
      outMap_same fun l => outMap_same fun o => outMap_bind (outlineOfGlif_data mid f _) fun out => ?_
    simp only [outMap, glifWithData, outlineWithData, List.isEmpty_map]
    split <;> rfl
  exact ⟨h, fun s => outMap_same fun e => h e⟩

/-! ## Editing -/

theorem prevNext_map {α β : Type} (h : α → β) (l : List α) (i : Nat) : prevNext (l.map h) i = prevNext l i := by
  unfold prevNext idxSane
  simp only [List.length_map]

theorem whichEnd_map {α β : Type} (h : α → β) (l : List α) (i : Nat) : idxWhichEnd (l.map h) i = idxWhichEnd l i := by
  unfold idxWhichEnd idxSane
  simp only [List.length_map]

theorem isOpen_data (f : PD → Option PD') (c : Contour PD) : isOpen (contourWithData f c) = isOpen c := by
  match c with
  | [] => rfl
  | [_] => rfl
  | _ :: _ :: _ => rfl

theorem contourPrevNext_data (f : PD → Option PD') (c : Contour PD) (i : Nat) : contourPrevNext (contourWithData f c) i = contourPrevNext c i := by
  unfold contourPrevNext idxAtStartOrEnd prev next
  rw [isOpen_data]
  unfold contourWithData
  rw [prevNext_map, whichEnd_map]

theorem handlesAt_data (f : PD → Option PD') (c : Contour PD) (i : Option Nat) : handlesAt (contourWithData f c) i = handlesAt c i := by
  cases i with
  | none => rfl
  | some i =>
    unfold handlesAt contourWithData
    simp only [List.getElem?_map]
    cases c[i]? <;> rfl

theorem pointTypeForIdx_data (f : PD → Option PD') (c : Contour PD) (i : Nat) : pointTypeForIdx (contourWithData f c) i = pointTypeForIdx c i := by
  unfold pointTypeForIdx contourPrevNextHandles
  rw [isOpen_data, contourPrevNext_data]
  simp only [handlesAt_data]
  rw [show (contourWithData f c)[i]? = c[i]?.map (withData f) from List.getElem?_map ..]
  generalize (contourPrevNext c i >>= fun x => handlesAt c x.1 >>= fun ph => handlesAt c x.2 >>= fun nh => Out.ok (ph, nh)) = r
  cases c[i]? with
  | none => rfl
  | some p => cases r <;> rfl

theorem modify_data {f : PD → Option PD'} {k : Point PD → Point PD} {k' : Point PD' → Point PD'} (hk : ∀ p, k' (withData f p) = withData f (k p))
    (c : Contour PD) (i : Nat) : (contourWithData f c).modify i k' = contourWithData f (c.modify i k) := by
  apply List.ext_getElem?
  intro j
  simp only [contourWithData, List.getElem?_map, List.getElem?_modify, Option.map_map]
  cases c[j]? with
  | none => simp
  | some p =>
    simp only [Option.map_some]
    by_cases h : i = j <;> simp [h, hk]

theorem refigure_data (f : PD → Option PD') (c : Contour PD) : refigure (contourWithData f c) = contourWithData f (refigure c) := by
  have step : ∀ (c : Contour PD) i, refigureAt (contourWithData f c) i = contourWithData f (refigureAt c i) := by
    intro c i
    unfold refigureAt
    simp only []
    rw [modify_data (f := f) (k := fun p => { p with a := p.a.knock p.x p.y, b := p.b.knock p.x p.y }) fun p => rfl, pointTypeForIdx_data,
      modify_data (f := f) (k := fun p => { p with ptype := pointTypeForIdx _ i }) fun p => rfl]
  have key : ∀ (l : List Nat) (c : Contour PD), l.foldl refigureAt (contourWithData f c) = contourWithData f (l.foldl refigureAt c) := by
    intro l
    induction l with
    | nil => intro c; rfl
    | cons i l ih => intro c; rw [List.foldl_cons, List.foldl_cons, step, ih]
  unfold refigure
  rw [show (contourWithData f c).length = c.length from List.length_map ..]
  exact key _ c

theorem toReversed_data (f : PD → Option PD') (c : Contour PD) : toReversed (contourWithData f c) = outMap (contourWithData f) (toReversed c) := by
  cases c with
  | nil => rfl
  | cons p0 rest =>
    have hlen : (contourWithData f (p0 :: rest)).length = (p0 :: rest).length := List.length_map ..
    have horder : ∀ b : Bool, ((if (!b) = true then withData f p0 :: (rest.map (withData f)).reverse else (contourWithData f (p0 :: rest)).reverse).map
        Point.swapHandles) = contourWithData f ((if (!b) = true then p0 :: rest.reverse else (p0 :: rest).reverse).map Point.swapHandles) := by
      have hs : (Point.swapHandles ∘ withData f : Point PD → Point PD') = withData f ∘ Point.swapHandles := rfl
      intro b
      cases b
      · simp only [Bool.not_false, if_true, contourWithData, List.map_map, List.map_cons, ← List.map_reverse, hs]
        rfl
      · simp only [Bool.not_true, Bool.false_eq_true, if_false, contourWithData, ← List.map_reverse, List.map_map, hs]
    unfold toReversed
    rw [show contourWithData f (p0 :: rest) = withData f p0 :: rest.map (withData f) from rfl] at hlen horder ⊢
    simp only [hlen, horder]
    have ho : (withData f p0).ptype = p0.ptype := rfl
    rw [ho]
    generalize (p0.ptype == .move && decide (1 < (p0 :: rest).length)) = b
    generalize ((if (!b) = true then p0 :: rest.reverse else (p0 :: rest).reverse).map Point.swapHandles) = n
    rw [modify_data (f := f) (k := fun p => { p with ptype := .move }) fun p => rfl,
      show (contourWithData f n).length = n.length from List.length_map ..]
    generalize n.modify 0 (fun p => { p with ptype := .move }) = n'
    have hget : ∀ i, (contourWithData f n')[i]? = n'[i]?.map (withData f) := fun i => List.getElem?_map ..
    have hmod : ∀ t : PointType, (contourWithData f n').modify (n.length - 1) (fun p => { p with ptype := t }) =
        contourWithData f (n'.modify (n.length - 1) fun p => { p with ptype := t }) := fun t =>
      modify_data (f := f) (k := fun p => { p with ptype := t }) (fun p => rfl) n' _
    cases b
    · rfl
    · simp only [if_true, hget]
      split
      · cases n'[n.length - 2]? with
        | none => rfl
        | some q =>
          cases n'[n.length - 1]? with
          | none => rfl
          | some r => exact congrArg Out.ok (hmod _)
      · split
        · cases n'[0]? with
          | none => rfl
          | some q =>
            cases n'[1]? with
            | none => rfl
            | some r => exact congrArg Out.ok (hmod _)
        · rfl

/-- **C138.** What reversing, refiguring, rounding and transforming do does not depend on the point data; none is looked at or made up.
(That each point keeps its own is part of C27, C28 and C30.) -/
theorem C138_edit (f : PD → Option PD') :
    (∀ o : Outline PD, outlineToReversed (outlineWithData f o) = outMap (outlineWithData f) (outlineToReversed o)) ∧
      (∀ o : Outline PD, refigureOutline (outlineWithData f o) = outlineWithData f (refigureOutline o)) ∧
      (∀ o : Outline PD, roundOutline (outlineWithData f o) = outlineWithData f (roundOutline o)) ∧
      ∀ (p : Point PD) (m : Affine), (withData f p).applyMatrix m = withData f (p.applyMatrix m) := by
  refine ⟨fun o => outMap_mapM (toReversed_data f) o, fun o => ?_, fun o => ?_, fun p m => rfl⟩
  · unfold refigureOutline outlineWithData
    rw [List.map_map, List.map_map]
    exact List.map_congr_left fun c _ => refigure_data f c
  · unfold roundOutline outlineWithData
    rw [List.map_map, List.map_map]
    refine List.map_congr_left fun c _ => ?_
    simp only [Function.comp_apply, roundContour, contourWithData, List.map_map]
    rfl

/-- **C138.** Whether a point is smooth does not depend on the point data, nor what checking it does. -/
theorem C138_smooth (near : SmoothTest) (f : PD → Option PD') (c : Contour PD) (i : Nat) :
    (∀ within, isPointSmoothWithin near (contourWithData f c) i within = isPointSmoothWithin near c i within) ∧
      checkSmooth near (contourWithData f c) i = outMap (fun r => (r.1, contourWithData f r.2)) (checkSmooth near c i) := by
  have hget : ∀ i, (contourWithData f c)[i]? = c[i]?.map (withData f) := fun i => List.getElem?_map ..
  have h : ∀ within, isPointSmoothWithin near (contourWithData f c) i within = isPointSmoothWithin near c i within := by
    intro within
    unfold isPointSmoothWithin
    rw [contourPrevNext_data, show idxWhichEnd (contourWithData f c) i = idxWhichEnd c i from whichEnd_map ..]
    simp only [hget]
    cases idxWhichEnd c i with
    | err e => rfl
    | panic => rfl
    | ok e =>
      cases contourPrevNext c i with
      | err e => rfl
      | panic => rfl
      | ok r =>
        obtain ⟨pr, nx⟩ := r
        cases c[i]? with
        | none => rfl
        | some p =>
          cases e with
          | none => rfl
          | some e =>
            cases e with
            | head =>
              cases pr with
              | none => rfl
              | some pr =>
                simp only [Out.bind_ok, Option.map_some, Out.unwrap]
                cases c[pr]? <;> rfl
            | tail =>
              cases nx with
              | none => rfl
              | some nx =>
                simp only [Out.bind_ok, Option.map_some, Out.unwrap]
                cases c[nx]? <;> rfl
  refine ⟨h, ?_⟩
  unfold checkSmooth
  rw [h]
  refine outMap_same fun s => ?_
  simp only [outMap]
  rw [modify_data (f := f) (k := fun p => { p with smooth := s }) fun p => rfl]

/-! ## Drawing -/

theorem skSegments_data (fx fy : F32 → F32) (f : PD → Option PD') (c : Contour PD) : ∀ p : Point PD,
    skSegments fx fy (withData f p) (c.map (withData f)) = skSegments fx fy p c := by
  induction c with
  | nil => intro p; rfl
  | cons q c ih =>
    intro p
    simp only [List.map_cons, skSegments, ih]
    rfl

theorem getLastD_map {α β : Type} (h : α → β) (l : List α) (a : α) : (l.map h).getLastD (h a) = h (l.getLastD a) := by
  induction l generalizing a with
  | nil => rfl
  | cons b l ih => simp only [List.map_cons, List.getLastD_cons, ih]

theorem toSkiaPath_data (fx fy : F32 → F32) (f : PD → Option PD') (c : Contour PD) :
    toSkiaPath fx fy (contourWithData f c) = toSkiaPath fx fy c := by
  cases c with
  | nil => rfl
  | cons p c =>
    simp only [contourWithData, List.map_cons, toSkiaPath, skSegments_data, getLastD_map]
    rfl

theorem penLoop_data (f : PD → Option PD') (c c' : Contour PD) : ∀ ops i, penLoop (contourWithData f c) ops i (c'.map (withData f)) =
    penLoop c ops i c' := by
  have hget : ∀ i, (contourWithData f c)[i]? = c[i]?.map (withData f) := fun i => List.getElem?_map ..
  have step : ∀ ops i p, penStep (contourWithData f c) ops i (withData f p) = penStep c ops i p := by
    intro ops i p
    unfold penStep
    rw [contourPrevNext_data]
    simp only [hget]
    rw [show (withData f p).ptype = p.ptype from rfl]
    cases p.ptype <;> try rfl
    simp only []
    cases contourPrevNext c i with
    | err e => rfl
    | panic => rfl
    | ok r =>
      obtain ⟨a, b⟩ := r
      cases b with
      | some b => simp only []; cases c[b]? <;> rfl
      | none =>
        cases a with
        | none => rfl
        | some a => simp only []; cases c[a]? <;> rfl
  induction c' with
  | nil => intro ops i; rfl
  | cons p c' ih =>
    intro ops i
    simp only [List.map_cons, penLoop, step, ih]

theorem intoPenOperations_data (f : PD → Option PD') (c : Contour PD) : intoPenOperations (contourWithData f c) = intoPenOperations c := by
  unfold intoPenOperations isClosed
  rw [isOpen_data, refigure_data]
  generalize refigure c = r
  simp only []
  have hl := penLoop_data f r r
  rw [show r.map (withData f) = contourWithData f r from rfl] at hl
  rw [hl]
  split
  · rw [show (contourWithData f r).head? = r.head?.map (withData f) from List.head?_map, 
      show (contourWithData f r).getLast? = r.getLast?.map (withData f) from List.getLast?_map]
    cases r.head? with
    | none => rfl
    | some p =>
      cases r.getLast? with
      | none => simp only [Option.map_some, Option.map_none, Out.unwrap, Out.bind_ok, hl]; rfl
      | some q => simp only [Option.map_some, Out.unwrap, Out.bind_ok, hl]; rfl
  · rfl

/-- **C138.** What is drawn, with Skia or kurbo, does not depend on the point data. -/
theorem C138_draw (fx fy : F32 → F32) (f : PD → Option PD') (o : Outline PD) :
    toSkiaPaths fx fy (outlineWithData f o) = toSkiaPaths fx fy o ∧ outlineIntoKurbo (outlineWithData f o) = outlineIntoKurbo o := by
  constructor
  · have key : ∀ (o : Outline PD) op cl, skPathsLoop fx fy op cl (outlineWithData f o) = skPathsLoop fx fy op cl o := by
      intro o
      induction o with
      | nil => intro op cl; rfl
      | cons c o ih =>
        intro op cl
        cases c with
        | nil => exact ih op cl
        | cons p c =>
          rw [show outlineWithData f ((p :: c) :: o) = (withData f p :: c.map (withData f)) :: outlineWithData f o from rfl]
          unfold skPathsLoop
          rw [show toSkiaPath fx fy (withData f p :: c.map (withData f)) = toSkiaPath fx fy (p :: c) from toSkiaPath_data fx fy f (p :: c)]
          simp only [ih]
          rfl
    unfold toSkiaPaths
    rw [key]
  · induction o with
    | nil => rfl
    | cons c o ih =>
      rw [show outlineWithData f (c :: o) = contourWithData f c :: outlineWithData f o from rfl]
      unfold outlineIntoKurbo
      rw [ih, show contourIntoKurbo (contourWithData f c) = contourIntoKurbo c by unfold contourIntoKurbo; rw [intoPenOperations_data]]

/-! ## Flattening -/

def componentWithData (f : PD → Option PD') (c : Component PD D) : Component PD' D := { glif := glifWithData f c.glif, matrix := c.matrix }

mutual
def treeWithData (f : PD → Option PD') : Tree (Component PD D) → Tree (Component PD' D)
  | .node c ts => .node (componentWithData f c) (treesWithData f ts)
def treesWithData (f : PD → Option PD') : List (Tree (Component PD D)) → List (Tree (Component PD' D))
  | [] => []
  | t :: ts => treeWithData f t :: treesWithData f ts
end

theorem treesWithData_eq (f : PD → Option PD') (ts : List (Tree (Component PD D))) : treesWithData f ts = ts.map (treeWithData f) := by
  induction ts with
  | nil => simp only [treesWithData, List.map_nil]
  | cons t ts ih => simp only [treesWithData, List.map_cons, ih]

theorem treeWithData_data (f : PD → Option PD') (t : Tree (Component PD D)) : (treeWithData f t).data = componentWithData f t.data := by
  cases t; simp only [treeWithData, Tree.data]

theorem treeWithData_children (f : PD → Option PD') (t : Tree (Component PD D)) : (treeWithData f t).children = t.children.map (treeWithData f) := by
  cases t; simp only [treeWithData, Tree.children, treesWithData_eq]

theorem runMap_bind {α β γ δ : Type} {x : Run α} {x' : Run β} {h : α → β} {k : α → Run γ} {k' : β → Run δ} {f : γ → δ}
    (hx : x' = x.map (outMap h)) (hk : ∀ a, k' (h a) = (k a).map (outMap f)) : Run.bind x' k' = (Run.bind x k).map (outMap f) := by
  subst hx
  match x with
  | none => rfl
  | some (.ok a) => exact hk a
  | some (.err e) => rfl
  | some .panic => rfl

theorem runMap_fold {α σ τ : Type} {h : σ → τ} {k : σ → α → Run σ} {k' : τ → α → Run τ} (hk : ∀ s a, k' (h s) a = (k s a).map (outMap h))
    (l : List α) : ∀ s, Run.fold k' (h s) l = (Run.fold k s l).map (outMap h) := by
  induction l with
  | nil => intro s; rfl
  | cons a l ih => intro s; exact runMap_bind (hk s a) fun s' => ih s'

theorem toComponent_data (mid : IOF → IOF → IOF) (pio : PlistIO D) (files : Files) (f : PD → Option PD') (c : GlifComponent) :
    (c.toComponent mid pio files : R (Component PD' D)) = outMap (componentWithData f) (c.toComponent mid pio files) := by
  unfold GlifComponent.toComponent
  refine outMap_same fun fn => outMap_same fun x => outMap_same fun e => ?_
  exact outMap_bind ((C138_read (PD := PD) mid pio ⟨fun _ => none, fun _ => none⟩ {} f).1 e) fun g => rfl

theorem buildTree_data {f : PD → Option PD'} {toC : GlifComponent → R (Component PD D)} {toC' : GlifComponent → R (Component PD' D)}
    (hC : ∀ c, toC' c = outMap (componentWithData f) (toC c)) (n : Nat) : ∀ (u : List Str) (c : Component PD D),
    buildComponentTree toC' n u (componentWithData f c) = (buildComponentTree toC n u c).map (outMap fun r => (treeWithData f r.1, r.2)) := by
  induction n with
  | zero => intro u c; rfl
  | succ n ih =>
    intro u c
    unfold buildComponentTree
    refine runMap_bind (h := fun s : List (Tree (Component PD D)) × List Str => (s.1.map (treeWithData f), s.2)) ?_ fun s => ?_
    · refine runMap_fold (h := fun s : List (Tree (Component PD D)) × List Str => (s.1.map (treeWithData f), s.2)) (fun s gc => ?_) _ ([], u)
      simp only []
      split
      · rfl
      · refine runMap_bind (h := componentWithData f) (by rw [hC]; rfl) fun c => runMap_bind (ih _ c) fun r => ?_
        simp [outMap]
    · simp only [Option.map_some, outMap, treeWithData, treesWithData_eq]

theorem forest_data {f : PD → Option PD'} {toC : GlifComponent → R (Component PD D)} {toC' : GlifComponent → R (Component PD' D)}
    (hC : ∀ c, toC' c = outMap (componentWithData f) (toC c)) (n : Nat) (gcs : GlifComponents) :
    gcs.forest toC' n = (gcs.forest toC n).map (outMap (List.map (treeWithData f))) := by
  unfold GlifComponents.forest
  refine runMap_bind (h := fun s : List (Tree (Component PD D)) × List Str => (s.1.map (treeWithData f), s.2)) ?_ fun s => rfl
  refine runMap_fold (h := fun s : List (Tree (Component PD D)) × List Str => (s.1.map (treeWithData f), s.2)) (fun s gc => ?_) _ ([], _)
  refine runMap_bind (h := componentWithData f) (by rw [hC]; rfl) fun c => runMap_bind (buildTree_data hC n _ c) fun r => ?_
  simp [outMap]

theorem rectContour_data (f : PD → Option PD') (ms : List Affine) (i : Nat) (c : Contour PD) : ∀ j r,
    rectContour ms i j r (contourWithData f c) = ((rectContour ms i j r c).1, contourWithData f (rectContour ms i j r c).2) := by
  have hms : ∀ (ms : List Affine) (p : Point PD), (withData f p).applyMatrices ms = withData f (p.applyMatrices ms) := by
    intro ms
    unfold Point.applyMatrices
    induction ms with
    | nil => intro p; rfl
    | cons m ms ih => intro p; exact ih (p.applyMatrix m)
  induction c with
  | nil => intro j r; rfl
  | cons p c ih =>
    intro j r
    rw [show contourWithData f (p :: c) = withData f p :: contourWithData f c from rfl]
    unfold rectContour
    simp only []
    rw [show ∀ b, r.update b (withData f p) = r.update b p from fun b => rfl, ih, hms]
    rfl

theorem rectOutline_data (f : PD → Option PD') (ms : List Affine) (o : Outline PD) : ∀ i r,
    rectOutline ms i r (outlineWithData f o) = ((rectOutline ms i r o).1, outlineWithData f (rectOutline ms i r o).2) := by
  induction o with
  | nil => intro i r; rfl
  | cons c o ih =>
    intro i r
    rw [show outlineWithData f (c :: o) = contourWithData f c :: outlineWithData f o from rfl]
    unfold rectOutline
    simp only []
    rw [rectContour_data, ih]
    rfl

theorem applyRect_data (f : PD → Option PD') (above : List Affine) (s : Rect × Outline PD) (c : Component PD D) :
    applyComponentRect above (s.1, outlineWithData f s.2) (componentWithData f c) =
      ((applyComponentRect above s c).1, outlineWithData f (applyComponentRect above s c).2) := by
  unfold applyComponentRect
  rw [show (componentWithData f c).glif.outline = c.glif.outline.map (outlineWithData f) from rfl,
    show (componentWithData f c).matrix = c.matrix from rfl]
  cases c.glif.outline with
  | none => rfl
  | some o =>
    simp only [Option.map_some]
    rw [rectOutline_data]
    simp only [outlineWithData, List.map_append]

theorem flattenTree_data (f : PD → Option PD') (t : Tree (Component PD D)) (o : Outline PD) :
    flattenTree (treeWithData f t) (outlineWithData f o) = ((flattenTree t o).1, outlineWithData f (flattenTree t o).2) := by
  unfold flattenTree
  rw [treeWithData_data, treeWithData_children, ← List.map_reverse]
  have key : ∀ (m : Affine) (ts : List (Tree (Component PD D))) (s : Rect × Outline PD),
      (ts.map (treeWithData f)).foldl (fun s child => applyComponentRect [m] s child.data) (s.1, outlineWithData f s.2) =
        ((ts.foldl (fun s child => applyComponentRect [m] s child.data) s).1,
          outlineWithData f (ts.foldl (fun s child => applyComponentRect [m] s child.data) s).2) := by
    intro m ts
    induction ts with
    | nil => intro s; rfl
    | cons t ts ih =>
      intro s
      rw [List.map_cons, List.foldl_cons, List.foldl_cons, treeWithData_data, applyRect_data, ih]
  rw [applyRect_data f [] ({}, o), ← key]
  rfl

theorem flattenForest_data (f : PD → Option PD') (ts : List (Tree (Component PD D))) :
    flattenForest (ts.map (treeWithData f)) = (outlineWithData f (flattenForest ts).1, (flattenForest ts).2) := by
  have key : ∀ (ts : List (Tree (Component PD D))) (s : Outline PD × List ComponentRect),
      (ts.map (treeWithData f)).foldl (fun s t => ((flattenTree t s.1).2, s.2 ++ [{ rect := (flattenTree t s.1).1, name := t.data.glif.name }]))
          (outlineWithData f s.1, s.2) =
        (outlineWithData f (ts.foldl (fun s t => ((flattenTree t s.1).2, s.2 ++ [{ rect := (flattenTree t s.1).1, name := t.data.glif.name }])) s).1,
          (ts.foldl (fun s t => ((flattenTree t s.1).2, s.2 ++ [{ rect := (flattenTree t s.1).1, name := t.data.glif.name }])) s).2) := by
    intro ts
    induction ts with
    | nil => intro s; rfl
    | cons t ts ih =>
      intro s
      rw [List.map_cons, List.foldl_cons, List.foldl_cons, flattenTree_data, treeWithData_data, ← ih]
      rfl
  exact key ts ([], [])

/-- **C138.** What a glyph is flattened to, and the rectangles, do not depend on the point data. -/
theorem C138_flatten (mid : IOF → IOF → IOF) (pio : PlistIO D) (files : Files) (n : Nat) (f : PD → Option PD') (g : Glif PD D) :
    (glifWithData f g).flattened (fun c => c.toComponent mid pio files) n =
      (g.flattened (fun c => c.toComponent mid pio files) n).map (outMap fun r => (glifWithData f r.1, r.2)) := by
  unfold Glif.flattened
  refine runMap_bind (forest_data (f := f) (toComponent_data mid pio files f) n g.components) fun ts => ?_
  rw [flattenForest_data]
  rfl

/-- Data that makes a difference: the two points have different data, which is kept, changed or taken away. -/
example : contourWithData (fun n : Nat => if n = 1 then none else some (n + 1))
    [{ (Point.ofGp (.fromXYType Flt.zero Flt.zero .line) : Point Nat) with data := some 1 },
      { (Point.ofGp (.fromXYType Flt.zero Flt.zero .line) : Point Nat) with data := some 2 }] =
    [Point.ofGp (.fromXYType Flt.zero Flt.zero .line), { (Point.ofGp (.fromXYType Flt.zero Flt.zero .line) : Point Nat) with data := some 3 }] := rfl

end GP
