import Verif.Lemmas.Mfek
import Verif.Lemmas.Matrix
/-!
# Editing the editor's contours (C48 to C51, C61 to C63)
-/
open Fl
namespace GP
open Spec

variable {PD : Type}

/-! ## C48 -/

/-- What each edit does to the points. -/
theorem C48_points (c c' : MContour PD) (e : Edit PD) (h : e.run c = .ok c') :
    kind c'.inner = kind c.inner ∧ PointsAfter c.inner c'.inner e := by
  cases e with
  | append d =>
    unfold Edit.run MContour.append at h
    cases hi : c.inner.append d.inner with
    | err e => simp only [hi] at h; exact nomatch h
    | panic => simp only [hi] at h; exact nomatch h
    | ok j =>
      simp only [hi] at h
      cases h
      obtain ⟨h1, h2, h3, h4⟩ := append_ok.1 hi
      exact ⟨h2, h1.symm, h3⟩
  | delete i =>
    unfold Edit.run MContour.delete at h
    cases hi : c.inner.delete i with
    | err e => simp only [hi] at h; exact nomatch h
    | panic => simp only [hi] at h; exact nomatch h
    | ok j =>
      simp only [hi, Out.bind_ok] at h
      cases ho : opRemove c.operation i with
      | err e => simp only [ho] at h; exact nomatch h
      | panic => simp only [ho] at h; exact nomatch h
      | ok o =>
        simp only [ho] at h
        cases h
        obtain ⟨h1, h2, h3, h4⟩ := delete_ok.1 hi
        exact ⟨h2, h1, h3⟩
  | insert i p =>
    unfold Edit.run at h
    cases hi : insertPoint c.inner i p with
    | err e => simp only [hi] at h; exact nomatch h
    | panic => simp only [hi] at h; exact nomatch h
    | ok j =>
      simp only [hi, Out.bind_ok] at h
      cases ho : opInsert c.operation i with
      | err e => simp only [ho] at h; exact nomatch h
      | panic => simp only [ho] at h; exact nomatch h
      | ok o =>
        simp only [ho] at h
        cases h
        obtain ⟨h1, h2, h3⟩ := insert_ok hi
        exact ⟨h2, h1, h3⟩
  | sub s e =>
    unfold Edit.run MContour.sub at h
    cases hi : c.inner.sub s e with
    | err e => simp only [hi] at h; exact nomatch h
    | panic => simp only [hi] at h; exact nomatch h
    | ok j =>
      simp only [hi, Out.bind_ok] at h
      cases ho : opSub c.operation s e with
      | err e => simp only [ho] at h; exact nomatch h
      | panic => simp only [ho] at h; exact nomatch h
      | ok o =>
        simp only [ho] at h
        cases h
        obtain ⟨h1, h2, h3, h4, h5⟩ := sub_ok.1 hi
        exact ⟨h3, h1, h2, h4⟩
  | reverse =>
    cases h
    exact ⟨(pts_reverse _).2, (pts_reverse _).1⟩
  | setOpen =>
    obtain ⟨j, hj, rfl⟩ := fmap_ok.1 h
    refine ⟨?_, setOpen_len hj⟩
    show kind j = kind c.inner
    revert hj
    rcases c with ⟨i, o⟩
    cases i with
    | cubic l => cases l <;> intro hj <;> cases hj <;> rfl
    | quad l => cases l <;> intro hj <;> cases hj <;> rfl
    | hyper l => intro hj; cases hj; rfl
  | setClosed =>
    obtain ⟨j, hj, rfl⟩ := fmap_ok.1 h
    refine ⟨?_, setClosed_len hj⟩
    show kind j = kind c.inner
    revert hj
    rcases c with ⟨i, o⟩
    cases i with
    | cubic l => cases l <;> intro hj <;> cases hj <;> rfl
    | quad l => cases l <;> intro hj <;> cases hj <;> rfl
    | hyper l => intro hj; cases hj; rfl

theorem widths_none {c : MContour PD} (h : ∀ d, c.operation ≠ some (.vws d)) : widths c = none := by
  unfold widths
  split
  · next d hd => exact absurd hd (h d)
  · rfl

theorem vws_or (o : Option (ContourOp (MContour PD))) : (∃ d, o = some (.vws d)) ∨ ∀ d, o ≠ some (.vws d) := by
  cases o with
  | none => exact Or.inr fun d h => nomatch h
  | some o =>
    cases o with
    | vws d => exact Or.inl ⟨d, rfl⟩
    | _ => exact Or.inr fun d h => nomatch h

theorem delete_outcome (i : MInner PD) (n : Nat) :
    (n < (pts i).length → ∃ j, i.delete n = .ok j) ∧ (¬ n < (pts i).length → i.delete n = .panic) := by
  cases i <;> (constructor <;> intro h <;> simp only [pts, List.length_map] at h <;> simp [MInner.delete, MInner.vecRemove, h])

theorem sub_outcome (i : MInner PD) (s e : Nat) :
    (s ≤ e ∧ e ≤ (pts i).length → ∃ j, i.sub s e = .ok j) ∧ (¬ (s ≤ e ∧ e ≤ (pts i).length) → i.sub s e = .panic) := by
  cases i <;> (constructor <;> intro h <;> simp only [pts, List.length_map] at h <;> simp only [MInner.sub, MInner.vecSlice, h] <;> simp)

theorem insert_outcome (i : MInner PD) (n : Nat) (p : MPoint PD) (hk : pointKind p = kind i) :
    (n ≤ (pts i).length → ∃ j, insertPoint i n p = .ok j) ∧ (¬ n ≤ (pts i).length → insertPoint i n p = .panic) := by
  cases i <;> cases p <;> first
    | (simp [kind, pointKind] at hk; done)
    | (constructor <;> intro h <;> simp only [pts, List.length_map] at h <;> simp [insertPoint, h])

/-- **C48.** Which edits can be done; the others panic, and appending a contour of another kind is an error. -/
theorem C48_outcome (c : MContour PD) (e : Edit PD) :
    (SameKind c e → (Possible c e → ∃ c', e.run c = .ok c') ∧ (¬ Possible c e → e.run c = .panic)) ∧
    (¬ SameKind c e → e.run c = .err .mismatch) := by
  cases e with
  | append d =>
    refine ⟨fun h => ⟨fun _ => ?_, fun hp => absurd h hp⟩, fun h => ?_⟩
    · obtain ⟨i, o⟩ := c
      obtain ⟨j, q⟩ := d
      cases i <;> cases j <;> first | exact ⟨_, rfl⟩ | (simp [SameKind, kind] at h; done)
    · obtain ⟨i, o⟩ := c
      obtain ⟨j, q⟩ := d
      cases i <;> cases j <;> first | exact absurd rfl h | rfl
  | delete n =>
    refine ⟨fun _ => ?_, fun h => absurd trivial h⟩
    obtain ⟨d1, d2⟩ := delete_outcome c.inner n
    simp only [Edit.run, MContour.delete, Possible]
    rcases vws_or c.operation with ⟨d, hd⟩ | hd
    · have hw : widths c = some d.handles := widths_some.2 ⟨d, hd, rfl⟩
      rw [hw, hd]
      constructor
      · rintro ⟨h1, h2⟩
        obtain ⟨j, hj⟩ := d1 h1
        rw [hj]
        simp [opRemove, VwsContour.removeOp, MInner.vecRemove, h2 _ rfl]
      · intro h
        by_cases h1 : n < (pts c.inner).length
        · obtain ⟨j, hj⟩ := d1 h1
          have h2 : ¬ n < d.handles.length := fun h2 => h ⟨h1, fun w hw => by cases hw; exact h2⟩
          rw [hj]
          simp [opRemove, VwsContour.removeOp, MInner.vecRemove, h2]
        · rw [d2 h1]; rfl
    · have ho : opRemove c.operation n = .ok c.operation := by
        unfold opRemove
        split
        · next d h => exact absurd h (hd d)
        · rfl
      rw [widths_none hd, ho]
      constructor
      · rintro ⟨h1, -⟩
        obtain ⟨j, hj⟩ := d1 h1
        rw [hj]
        exact ⟨_, rfl⟩
      · intro h
        rw [d2 fun h1 => h ⟨h1, fun w hw => nomatch hw⟩]
        rfl
  | insert n p =>
    constructor
    · intro hk
      obtain ⟨d1, d2⟩ := insert_outcome c.inner n p hk
      simp only [Edit.run, Possible]
      rcases vws_or c.operation with ⟨d, hd⟩ | hd
      · have hw : widths c = some d.handles := widths_some.2 ⟨d, hd, rfl⟩
        rw [hw, hd]
        constructor
        · rintro ⟨h1, h2⟩
          obtain ⟨j, hj⟩ := d1 h1
          rw [hj]
          simp [opInsert, VwsContour.insertOp, h2 _ rfl]
        · intro h
          by_cases h1 : n ≤ (pts c.inner).length
          · obtain ⟨j, hj⟩ := d1 h1
            have h2 : ¬ n < d.handles.length := fun h2 => h ⟨h1, fun w hw => by cases hw; exact h2⟩
            rw [hj]
            simp [opInsert, VwsContour.insertOp, List.getElem?_eq_none (Nat.le_of_not_lt h2)]
          · rw [d2 h1]; rfl
      · have ho : opInsert c.operation n = .ok c.operation := by
          unfold opInsert
          split
          · next d h => exact absurd h (hd d)
          · rfl
        rw [widths_none hd, ho]
        constructor
        · rintro ⟨h1, -⟩
          obtain ⟨j, hj⟩ := d1 h1
          rw [hj]
          exact ⟨_, rfl⟩
        · intro h
          rw [d2 fun h1 => h ⟨h1, fun w hw => nomatch hw⟩]
          rfl
    · intro hk
      obtain ⟨i, o⟩ := c
      cases i <;> cases p <;> first | exact absurd rfl hk | rfl
  | sub s e =>
    refine ⟨fun _ => ?_, fun h => absurd trivial h⟩
    obtain ⟨d1, d2⟩ := sub_outcome c.inner s e
    simp only [Edit.run, MContour.sub, Possible]
    rcases vws_or c.operation with ⟨d, hd⟩ | hd
    · have hw : widths c = some d.handles := widths_some.2 ⟨d, hd, rfl⟩
      rw [hw, hd]
      constructor
      · rintro ⟨h1, h2, h3⟩
        obtain ⟨j, hj⟩ := d1 ⟨h1, h2⟩
        have h3 := h3 _ rfl
        rw [hj]
        simp only [opSub, VwsContour.sub, Out.bind_ok]
        rw [if_pos (by omega)]
        exact ⟨_, rfl⟩
      · intro h
        by_cases h1 : s ≤ e ∧ e ≤ (pts c.inner).length
        · obtain ⟨j, hj⟩ := d1 h1
          have h2 : ¬ e < d.handles.length := fun h2 => h ⟨h1.1, h1.2, fun w hw => by cases hw; exact h2⟩
          rw [hj]
          simp only [opSub, VwsContour.sub, Out.bind_ok]
          rw [if_neg (by omega)]
          rfl
        · rw [d2 h1]; rfl
    · have ho : opSub c.operation s e = .ok c.operation := by
        unfold opSub
        split
        · next d h => exact absurd h (hd d)
        · rfl
      rw [widths_none hd, ho]
      constructor
      · rintro ⟨h1, h2, -⟩
        obtain ⟨j, hj⟩ := d1 ⟨h1, h2⟩
        rw [hj]
        exact ⟨_, rfl⟩
      · intro h
        rw [d2 fun h1 => h ⟨h1.1, h1.2, fun w hw => nomatch hw⟩]
        rfl
  | reverse => exact ⟨fun _ => ⟨fun _ => ⟨_, rfl⟩, fun h => absurd trivial h⟩, fun h => absurd trivial h⟩
  | setOpen =>
    refine ⟨fun _ => ?_, fun h => absurd trivial h⟩
    obtain ⟨i, o⟩ := c
    simp only [Possible]
    cases i with
    | cubic l => cases l <;> simp [Edit.run, MContour.setOpen, MInner.setOpen, kind, pts]
    | quad l => cases l <;> simp [Edit.run, MContour.setOpen, MInner.setOpen, kind, pts]
    | hyper l => simp [Edit.run, MContour.setOpen, MInner.setOpen, kind, pts]
  | setClosed =>
    refine ⟨fun _ => ?_, fun h => absurd trivial h⟩
    obtain ⟨i, o⟩ := c
    simp only [Possible]
    cases i with
    | cubic l => cases l <;> simp [Edit.run, MContour.setClosed, MInner.setClosed, kind, pts]
    | quad l => cases l <;> simp [Edit.run, MContour.setClosed, MInner.setClosed, kind, pts]
    | hyper l => simp [Edit.run, MContour.setClosed, MInner.setClosed, kind, pts]

/-- What each edit does to the width handles. -/
theorem C48_widths (c c' : MContour PD) (e : Edit PD) (w : List VwsHandle) (hw : widths c = some w) (h : e.run c = .ok c') :
    ∃ w', widths c' = some w' ∧ WidthsAfter w w' e := by
  obtain ⟨d, hd, rfl⟩ := widths_some.1 hw
  cases e with
  | append a =>
    unfold Edit.run MContour.append at h
    cases hi : c.inner.append a.inner with
    | err e => simp only [hi] at h; exact nomatch h
    | panic => simp only [hi] at h; exact nomatch h
    | ok j =>
      simp only [hi] at h
      cases h
      refine ⟨(d.append a).handles, widths_some.2 ⟨_, by rw [hd]; rfl, rfl⟩, ?_⟩
      show (d.append a).handles = d.handles ++ (widths a).getD _
      unfold VwsContour.append widths
      cases ha : a.operation with
      | none =>
        simp only [Option.getD_none]
        rw [pushLast_eq, len_pts]
        rfl
      | some o =>
        cases o with
        | vws x => rfl
        | pap x =>
          simp only [Option.getD_none]
          rw [pushLast_eq, len_pts]
          rfl
        | dash x =>
          simp only [Option.getD_none]
          rw [pushLast_eq, len_pts]
          rfl
  | delete i =>
    unfold Edit.run MContour.delete at h
    cases hi : c.inner.delete i with
    | err e => simp only [hi] at h; exact nomatch h
    | panic => simp only [hi] at h; exact nomatch h
    | ok j =>
      simp only [hi, Out.bind_ok, hd] at h
      unfold opRemove at h
      cases ho : d.removeOp i with
      | err e => simp only [ho] at h; exact nomatch h
      | panic => simp only [ho] at h; exact nomatch h
      | ok o =>
        simp only [ho] at h
        cases h
        obtain ⟨h1, rfl⟩ := vws_remove_ok.1 ho
        exact ⟨_, rfl, h1, rfl⟩
  | insert i p =>
    unfold Edit.run at h
    cases hi : insertPoint c.inner i p with
    | err e => simp only [hi] at h; exact nomatch h
    | panic => simp only [hi] at h; exact nomatch h
    | ok j =>
      simp only [hi, Out.bind_ok, hd] at h
      unfold opInsert at h
      cases ho : d.insertOp i with
      | err e => simp only [ho] at h; exact nomatch h
      | panic => simp only [ho] at h; exact nomatch h
      | ok o =>
        simp only [ho] at h
        cases h
        obtain ⟨x, h1, rfl⟩ := vws_insert_ok.1 ho
        exact ⟨_, rfl, x, h1, rfl⟩
  | sub s e =>
    have hse := (C48_points c c' (.sub s e) h).2.1
    unfold Edit.run MContour.sub at h
    cases hi : c.inner.sub s e with
    | err e => simp only [hi] at h; exact nomatch h
    | panic => simp only [hi] at h; exact nomatch h
    | ok j =>
      simp only [hi, Out.bind_ok, hd] at h
      unfold opSub at h
      cases ho : d.sub s e with
      | err e => simp only [ho] at h; exact nomatch h
      | panic => simp only [ho] at h; exact nomatch h
      | ok o =>
        simp only [ho] at h
        cases h
        obtain ⟨h1, rfl⟩ := (vws_sub_ok hse).1 ho
        exact ⟨_, rfl, h1, rfl⟩
  | reverse =>
    cases h
    exact ⟨_, hw, rfl⟩
  | setOpen =>
    obtain ⟨j, hj, rfl⟩ := fmap_ok.1 h
    exact ⟨_, hw, rfl⟩
  | setClosed =>
    obtain ⟨j, hj, rfl⟩ := fmap_ok.1 h
    exact ⟨_, hw, rfl⟩

/-- No edit gives width handles to a contour without. -/
theorem C48_none (c c' : MContour PD) (e : Edit PD) (hw : widths c = none) (h : e.run c = .ok c') : widths c' = none := by
  have hnv : ∀ d, c.operation ≠ some (.vws d) := fun d hd => by
    rw [widths_some.2 ⟨d, hd, rfl⟩] at hw
    exact nomatch hw
  have key : c'.operation = c.operation := by
    rcases c with ⟨i, op⟩
    have h1 : ∀ n, opRemove op n = .ok op ∧ opInsert op n = .ok op ∧ (∀ m, opSub op n m = .ok op) ∧ ∀ a, opAppend op a = op := by
      intro n
      cases op with
      | none => exact ⟨rfl, rfl, fun _ => rfl, fun _ => rfl⟩
      | some o =>
        cases o with
        | vws d => exact absurd rfl (hnv d)
        | pap d => exact ⟨rfl, rfl, fun _ => rfl, fun _ => rfl⟩
        | dash d => exact ⟨rfl, rfl, fun _ => rfl, fun _ => rfl⟩
    cases e with
    | append a =>
      unfold Edit.run MContour.append at h
      cases hi : i.append a.inner with
      | err e => simp only [hi] at h; exact nomatch h
      | panic => simp only [hi] at h; exact nomatch h
      | ok j => simp only [hi, Out.bind_ok] at h; cases h; exact (h1 0).2.2.2 a
    | delete n =>
      unfold Edit.run MContour.delete at h
      cases hi : i.delete n with
      | err e => simp only [hi] at h; exact nomatch h
      | panic => simp only [hi] at h; exact nomatch h
      | ok j => simp only [hi, Out.bind_ok, (h1 n).1] at h; cases h; rfl
    | insert n p =>
      unfold Edit.run at h
      cases hi : insertPoint i n p with
      | err e => simp only [hi] at h; exact nomatch h
      | panic => simp only [hi] at h; exact nomatch h
      | ok j => simp only [hi, Out.bind_ok, (h1 n).2.1] at h; cases h; rfl
    | sub s e =>
      unfold Edit.run MContour.sub at h
      cases hi : i.sub s e with
      | err e => simp only [hi] at h; exact nomatch h
      | panic => simp only [hi] at h; exact nomatch h
      | ok j => simp only [hi, Out.bind_ok, (h1 s).2.2.1] at h; cases h; rfl
    | reverse => cases h; rfl
    | setOpen => obtain ⟨j, hj, rfl⟩ := fmap_ok.1 h; rfl
    | setClosed => obtain ⟨j, hj, rfl⟩ := fmap_ok.1 h; rfl
  unfold widths at hw ⊢
  rw [key]
  exact hw

/-- **C48**, exactly: by how many the handles outnumber the points after each edit. -/
theorem C48_exact (c c' : MContour PD) (e : Edit PD) (k : Int) (hw : (widths c).isSome = true) (hk : InStep k c) (h : e.run c = .ok c') :
    SurplusAfter k c' e := by
  obtain ⟨w, hw⟩ := Option.isSome_iff_exists.1 hw
  have hp := (C48_points c c' e h).2
  obtain ⟨w', hw', hc⟩ := C48_widths c c' e w hw h
  have hk := hk w hw
  have fin : ∀ k', (w'.length : Int) = (pts c'.inner).length + k' → InStep k' c' := fun k' hl u hu => by
    rw [hw'] at hu
    cases hu
    exact hl
  cases e with
  | append d =>
    intro m hm
    apply fin
    simp only [PointsAfter, WidthsAfter] at hp hc
    rw [hp.2, hc, List.length_append, List.length_append]
    cases hd : widths d with
    | none =>
      simp only [Option.getD_none, List.length_replicate, Option.isSome_none, Bool.false_eq_true, if_false]
      omega
    | some v =>
      have := hm v hd
      simp only [Option.getD_some, Option.isSome_some, if_true]
      omega
  | delete i =>
    apply fin
    obtain ⟨h1, h2⟩ := hp
    obtain ⟨h3, h4⟩ := hc
    rw [h2, h4, List.length_eraseIdx_of_lt h1, List.length_eraseIdx_of_lt h3]
    omega
  | insert i p =>
    apply fin
    obtain ⟨h1, h2⟩ := hp
    obtain ⟨x, h3, h4⟩ := hc
    have h5 : i < w.length := (List.getElem?_eq_some_iff.1 h3).1
    rw [h2, h4, List.length_insertIdx_of_le_length h1, List.length_insertIdx_of_le_length (Nat.le_of_lt h5)]
    omega
  | sub s e =>
    apply fin
    obtain ⟨h1, h2, h3⟩ := hp
    obtain ⟨h4, h5⟩ := hc
    rw [h3, h5, List.length_drop, List.length_take, List.length_drop, List.length_take]
    omega
  | reverse =>
    apply fin
    simp only [PointsAfter, WidthsAfter] at hp hc
    rw [hp, hc, List.length_reverse]
    exact hk
  | setOpen =>
    apply fin
    simp only [PointsAfter, WidthsAfter] at hp hc
    rw [hp, hc]
    exact hk
  | setClosed =>
    apply fin
    simp only [PointsAfter, WidthsAfter] at hp hc
    rw [hp, hc]
    exact hk

theorem instep_none (k : Int) (c : MContour PD) (h : widths c = none) : InStep k c := fun w hw => by
  rw [h] at hw
  exact nomatch hw

/-- **C48**, as far as it holds: along every history of appending, deleting and inserting, with as many
handles as points in all contours, or of taking sub-contours, deleting, inserting and appending contours
without handles, with one more handle than points, the numbers stay in step. -/
theorem C48_partial (k : Int) (es : List (Edit PD)) (hes : ∀ e ∈ es, Keeps k e) (c c' : MContour PD) (hc : InStep k c)
    (h : history c es = .ok c') : InStep k c' := by
  induction es generalizing c with
  | nil => cases h; exact hc
  | cons e es ih =>
    unfold history at h
    cases hr : e.run c with
    | err x => rw [hr] at h; exact nomatch h
    | panic => rw [hr] at h; exact nomatch h
    | ok d =>
      rw [hr] at h
      refine ih (fun x hx => hes x (List.mem_cons_of_mem _ hx)) d ?_ h
      cases hw : widths c with
      | none => exact instep_none k d (C48_none c d e hw hr)
      | some w =>
        have he := hes e (List.mem_cons_self ..)
        have := C48_exact c d e k (by rw [hw]; rfl) hc hr
        cases e with
        | append a =>
          cases ha : widths a with
          | none =>
            have := this 0 (instep_none 0 a ha)
            rw [ha] at this
            simpa using this
          | some v =>
            obtain ⟨rfl, h0⟩ := he (by rw [ha]; rfl)
            have := this 0 h0
            rw [ha] at this
            simpa using this
        | delete i => exact this
        | insert i p => exact this
        | sub s e => rw [show k = 1 from he]; exact this
        | reverse => exact this
        | setOpen => exact this
        | setClosed => exact this

/-- A stroked contour of `n` points with `m` handles. -/
def strokeSample (n m : Nat) : MContour Unit :=
  { inner := .cubic (List.replicate n {}),
    operation := some (.vws ⟨List.replicate m VwsContour.defaultHandle, .round, .round, .round, false, false⟩) }

theorem stroke_instep (n m : Nat) : InStep ((m : Int) - n) (strokeSample n m) := by
  intro w hw
  cases hw
  simp [strokeSample, pts]
  omega

/-- **C48 is false of the code**, whatever the constant: with as many handles as points taking a sub-contour
leaves one handle too many, with more handles appending adds up the surplus. -/
theorem C48_false (k : Nat) : ∃ (c c' : MContour Unit) (e : Edit Unit), InStep k c ∧ e.run c = .ok c' ∧ ¬ InStep k c' ∧
    ∀ d, e = .append d → InStep k d := by
  cases k with
  | zero =>
    refine ⟨strokeSample 2 2, strokeSample 1 2, .sub 0 1, stroke_instep 2 2, rfl, fun h => ?_, fun d h => (nomatch h)⟩
    have := h _ rfl
    simp [strokeSample, pts] at this
  | succ k =>
    have hs : InStep (((k + 1 : Nat)) : Int) (strokeSample 1 (k + 2)) := by
      have := stroke_instep 1 (k + 2)
      rwa [show (((k + 2 : Nat) : Int)) - (1 : Nat) = ((k + 1 : Nat) : Int) by omega] at this
    refine ⟨strokeSample 1 (k + 2), _, .append (strokeSample 1 (k + 2)), hs, rfl, fun h => ?_, fun d h => by cases h; exact hs⟩
    have := h _ rfl
    simp [strokeSample, pts, VwsContour.append] at this
    omega

/-- With as many handles as points, a sub-contour up to the last point cannot be taken: it panics. -/
theorem C48_sub_panics (c : MContour PD) (s : Nat) (hw : (widths c).isSome = true) (hc : InStep 0 c) :
    c.sub s (pts c.inner).length = .panic := by
  obtain ⟨w, hw⟩ := Option.isSome_iff_exists.1 hw
  have hl := hc w hw
  cases hr : c.sub s (pts c.inner).length with
  | ok c' =>
    obtain ⟨w', _, h1, _⟩ := C48_widths c c' (.sub s (pts c.inner).length) w hw hr
    omega
  | err e =>
    unfold MContour.sub at hr
    cases hi : c.inner.sub s (pts c.inner).length with
    | err x => exact absurd hi (sub_no_err _ _ _ _)
    | panic => rw [hi] at hr; exact nomatch hr
    | ok j =>
      rw [hi, Out.bind_ok] at hr
      cases ho : opSub c.operation s (pts c.inner).length with
      | err x => exact absurd ho (opSub_no_err _ _ _ _)
      | panic => rw [ho] at hr; exact nomatch hr
      | ok o => rw [ho] at hr; exact nomatch hr
  | panic => rfl

/-- Deleting through the wrapper for cubic contours leaves the handle of the point behind. -/
theorem C48_cubic_wrapper (c c' : MContour PD) (i : Nat) (k : Int) (hk : InStep k c)
    (h : c.deleteCubic i = .ok c') : InStep (k + 1) c' := by
  unfold MContour.deleteCubic at h
  cases hi : c.inner.delete i with
  | err x => simp only [hi] at h; exact nomatch h
  | panic => simp only [hi] at h; exact nomatch h
  | ok j =>
    simp only [hi] at h
    cases h
    intro w hw'
    have := hk w hw'
    obtain ⟨h1, h2, h3, h4⟩ := delete_ok.1 hi
    show (w.length : Int) = (pts j).length + (k + 1)
    rw [h3, List.length_eraseIdx_of_lt h1]
    omega

/-- Reversing the points leaves the handles in their old order, so that points get other points' handles. -/
theorem C48_reverse_handles (c : MContour PD) : widths c.reversePoints = widths c ∧ pts c.reversePoints.inner = (pts c.inner).reverse :=
  ⟨rfl, (pts_reverse _).1⟩

example : ∃ c, history (strokeSample 3 3) [.delete 1, .insert 0 (.cubic {}), .append (strokeSample 2 2)] = .ok c ∧
    (pts c.inner).length = 5 ∧ InStep 0 c :=
  ⟨_, rfl, rfl, C48_partial 0 [.delete 1, .insert 0 (.cubic {}), .append (strokeSample 2 2)] (by
    intro e he
    simp only [List.mem_cons, List.not_mem_nil, or_false] at he
    rcases he with rfl | rfl | rfl
    · trivial
    · trivial
    · exact fun _ => ⟨rfl, stroke_instep 2 2⟩) (strokeSample 3 3) _ (stroke_instep 3 3) rfl⟩

end GP
