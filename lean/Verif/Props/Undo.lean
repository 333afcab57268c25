import Verif.Spec.Undo
import Verif.Props.MfekOpen
import Verif.Props.Sample
/-!
# Edits that can be undone (C131)
-/
open Fl
namespace GP
open Spec

variable {PD : Type}

theorem insertIdx_eraseIdx_back {α : Type} {l : List α} {n : Nat} {a : α} (h : l[n]? = some a) : (l.eraseIdx n).insertIdx n a = l := by
  induction l generalizing n with
  | nil => exact nomatch h
  | cons b l ih =>
    cases n with
    | zero => cases h; rfl
    | succ n => rw [List.eraseIdx_cons_succ, List.insertIdx_succ_cons, ih h]

theorem insertIdx_eraseIdx_iff {α : Type} {l : List α} {n : Nat} {a b : α} (h : l[n]? = some a) :
    (l.eraseIdx n).insertIdx n b = l ↔ b = a := by
  constructor
  · intro hb
    have hl : n < l.length := by
      by_contra hc
      rw [List.getElem?_eq_none (by omega)] at h
      exact nomatch h
    have := congrArg (fun l => l[n]?) hb
    simp only [h] at this
    rw [List.getElem?_insertIdx_self, if_pos (by rw [List.length_eraseIdx_of_lt hl]; omega)] at this
    exact Option.some.inj this
  · rintro rfl
    exact insertIdx_eraseIdx_back h

theorem insert_back {i j : MInner PD} {n : Nat} {p : MPoint PD} (h : insertPoint i n p = .ok j) : j.delete n = .ok i := by
  have hh : hyperOpen j = hyperOpen i := by
    cases i <;> cases p <;> simp only [insertPoint] at h <;> first
      | (split at h
         · cases h; rfl
         · exact nomatch h)
      | simp at h
  obtain ⟨h1, h2, h3⟩ := insert_ok h
  refine delete_ok.2 ⟨?_, h2.symm, ?_, hh.symm⟩
  · rw [h3, List.length_insertIdx, if_pos h1]
    omega
  · rw [h3, List.eraseIdx_insertIdx_self]

theorem delete_back {i j : MInner PD} {n : Nat} {p : MPoint PD} (h : i.delete n = .ok j) (hp : (pts i)[n]? = some p) :
    insertPoint j n p = .ok i := by
  cases i with
  | cubic c =>
    obtain ⟨r, h0, rfl⟩ := fmap_ok.1 h
    obtain ⟨h1, rfl⟩ := remove_ok.1 h0
    rw [show pts (.cubic c) = c.map .cubic from rfl, List.getElem?_map] at hp
    obtain ⟨q, hq, rfl⟩ := Option.map_eq_some_iff.1 hp
    simp only [insertPoint]
    rw [if_pos (by rw [List.length_eraseIdx_of_lt h1]; omega), insertIdx_eraseIdx_back hq]
  | quad c =>
    obtain ⟨r, h0, rfl⟩ := fmap_ok.1 h
    obtain ⟨h1, rfl⟩ := remove_ok.1 h0
    rw [show pts (.quad c) = c.map .quad from rfl, List.getElem?_map] at hp
    obtain ⟨q, hq, rfl⟩ := Option.map_eq_some_iff.1 hp
    simp only [insertPoint]
    rw [if_pos (by rw [List.length_eraseIdx_of_lt h1]; omega), insertIdx_eraseIdx_back hq]
  | hyper c =>
    obtain ⟨r, h0, rfl⟩ := fmap_ok.1 h
    obtain ⟨h1, rfl⟩ := remove_ok.1 h0
    rw [show pts (.hyper c) = c.points.map .hyper from rfl, List.getElem?_map] at hp
    obtain ⟨q, hq, rfl⟩ := Option.map_eq_some_iff.1 hp
    simp only [insertPoint]
    rw [if_pos (by rw [List.length_eraseIdx_of_lt h1]; omega), insertIdx_eraseIdx_back hq]

theorem append_back {i j k : MInner PD} (h : i.append j = .ok k) : k.sub 0 (pts i).length = .ok i := by
  obtain ⟨_, h2, h3, h4⟩ := append_ok.1 h
  refine sub_ok.2 ⟨Nat.zero_le _, ?_, h2.symm, ?_, h4.symm⟩
  · rw [h3, List.length_append]
    omega
  · rw [h3, List.take_left' rfl, List.drop_zero]

theorem reverse_back (i : MInner PD) : i.reversePoints.reversePoints = i := by
  cases i <;> simp [MInner.reversePoints]

theorem opInsert_back {o o' : Option (ContourOp (MContour PD))} {n : Nat} (h : opInsert o n = .ok o') : opRemove o' n = .ok o := by
  unfold opInsert at h
  split at h
  · obtain ⟨w, hw, rfl⟩ := fmap_ok.1 h
    obtain ⟨x, hx, rfl⟩ := vws_insert_ok.1 hw
    refine fmap_ok.2 ⟨_, vws_remove_ok.2 ⟨?_, rfl⟩, ?_⟩
    · have : n < _ := (List.getElem?_eq_some_iff.1 hx).1
      simp only [List.length_insertIdx]
      split <;> omega
    · simp only [List.eraseIdx_insertIdx_self]
  · next hn =>
    cases h
    unfold opRemove
    split
    · next d => exact absurd rfl (hn d)
    · rfl

/-- Widths are those of the operation. -/
theorem widths_vws (i : MInner PD) (d : VwsContour) : widths (⟨i, some (.vws d)⟩ : MContour PD) = some d.handles := rfl

/-- **C131.** An insertion is undone by deleting the point, in points, width handles and all else. -/
theorem C131_insert (c c' : MContour PD) (n : Nat) (p : MPoint PD) (h : (Edit.insert n p).run c = .ok c') :
    (Edit.delete n).run c' = .ok c := by
  rcases c with ⟨i, o⟩
  unfold Edit.run at h
  cases hi : insertPoint i n p with
  | err e => simp only [hi] at h; exact nomatch h
  | panic => simp only [hi] at h; exact nomatch h
  | ok j =>
    cases ho : opInsert o n with
    | err e => simp only [hi, ho, Out.bind_ok] at h; exact nomatch h
    | panic => simp only [hi, ho, Out.bind_ok] at h; exact nomatch h
    | ok o' =>
      simp only [hi, ho, Out.bind_ok] at h
      cases h
      unfold Edit.run MContour.delete
      simp only [insert_back hi, opInsert_back ho, Out.bind_ok]

/-- What becomes of a contour if one of its points is deleted and inserted again: all is as before, except that the
width handle of the point is now a copy of the next one. -/
theorem delete_insert {c c' : MContour PD} {n : Nat} {p : MPoint PD} (hp : (pts c.inner)[n]? = some p)
    (h : (Edit.delete n).run c = .ok c') :
    (widths c = none ∧ (Edit.insert n p).run c' = .ok c) ∨
    ∃ d, c.operation = some (.vws d) ∧ n < d.handles.length ∧
      (Edit.insert n p).run c' = match d.handles[n + 1]? with
        | some x => .ok { c with operation := some (.vws { d with handles := (d.handles.eraseIdx n).insertIdx n x }) }
        | none => .panic := by
  rcases c with ⟨i, o⟩
  unfold Edit.run MContour.delete at h
  cases hi : i.delete n with
  | err e => simp only [hi] at h; exact nomatch h
  | panic => simp only [hi] at h; exact nomatch h
  | ok j =>
    have hb := delete_back hi hp
    cases ho : opRemove o n with
    | err e => simp only [hi, ho, Out.bind_ok] at h; exact nomatch h
    | panic => simp only [hi, ho, Out.bind_ok] at h; exact nomatch h
    | ok o' =>
      simp only [hi, ho, Out.bind_ok] at h
      cases h
      unfold opRemove at ho
      split at ho
      · next d =>
        right
        obtain ⟨w, hw, rfl⟩ := fmap_ok.1 ho
        obtain ⟨hl, rfl⟩ := vws_remove_ok.1 hw
        refine ⟨d, rfl, hl, ?_⟩
        unfold Edit.run
        simp only [hb, Out.bind_ok, opInsert, VwsContour.insertOp]
        rw [List.getElem?_eraseIdx_of_ge (Nat.le_refl n)]
        cases d.handles[n + 1]? <;> rfl
      · next hn =>
        left
        cases ho
        have hw : widths (⟨i, o⟩ : MContour PD) = none := by
          unfold widths
          split
          · next d hd => exact absurd hd (hn d)
          · rfl
        refine ⟨hw, ?_⟩
        unfold Edit.run
        have : opInsert o n = .ok o := by
          unfold opInsert
          split
          · next d => exact absurd rfl (hn d)
          · rfl
        simp only [hb, this, Out.bind_ok]

/-- **C131.** A deleted point that is inserted again restores the contour if and only if its width handle was the same as
the next one; it panics if there was no next handle, which for handles in step with the points is at the last point. -/
theorem C131_delete (c c' : MContour PD) (n : Nat) (p : MPoint PD) (hp : (pts c.inner)[n]? = some p)
    (h : (Edit.delete n).run c = .ok c') :
    ((Edit.insert n p).run c' = .ok c ↔ ∀ w, widths c = some w → w[n + 1]? = w[n]?) ∧
    ((Edit.insert n p).run c' = .panic ↔ ∃ w, widths c = some w ∧ w.length = n + 1) := by
  rcases delete_insert hp h with ⟨hw, hr⟩ | ⟨d, hd, hl, hr⟩
  · rw [hr]
    exact ⟨⟨fun _ w h => (by rw [hw] at h; exact nomatch h), fun _ => rfl⟩, fun h => (nomatch h),
      fun ⟨w, h, _⟩ => (by rw [hw] at h; exact nomatch h)⟩
  · have hw : widths c = some d.handles := widths_some.2 ⟨d, hd, rfl⟩
    rw [hr, hw]
    cases hx : d.handles[n + 1]? with
    | none =>
      refine ⟨⟨fun h => (nomatch h), fun h => ?_⟩, fun _ => ⟨_, rfl, ?_⟩, fun _ => rfl⟩
      · have := h _ rfl
        rw [hx, List.getElem?_eq_getElem hl] at this
        exact nomatch this
      · have := List.getElem?_eq_none_iff.1 hx
        omega
    | some x =>
      have hn := List.getElem?_eq_getElem hl
      refine ⟨?_, fun h => (nomatch h), fun ⟨w, h, hw⟩ => ?_⟩
      · rcases c with ⟨i, o⟩
        cases hd
        simp only [Out.ok.injEq, MContour.mk.injEq, true_and, Option.some.injEq, ContourOp.vws.injEq]
        constructor
        · intro h w hw
          cases hw
          have h := congrArg VwsContour.handles h
          rw [hx, hn, (insertIdx_eraseIdx_iff hn).1 h]
        · intro h
          have h := h _ rfl
          rw [hx, hn] at h
          rw [(insertIdx_eraseIdx_iff hn).2 (Option.some.inj h)]
      · cases h
        have := (List.getElem?_eq_some_iff.1 hx).1
        omega

/-- The points come back in any case. -/
theorem C131_points (c c' c'' : MContour PD) (n : Nat) (p : MPoint PD) (hp : (pts c.inner)[n]? = some p)
    (h : (Edit.delete n).run c = .ok c') (h' : (Edit.insert n p).run c' = .ok c'') :
    c''.inner = c.inner ∧ ∀ w w', widths c = some w → widths c'' = some w' → ∀ k, k ≠ n → w'[k]? = w[k]? := by
  rcases delete_insert hp h with ⟨hw, hr⟩ | ⟨d, hd, hl, hr⟩
  · rw [hr] at h'
    cases h'
    exact ⟨rfl, fun w w' h => (by rw [hw] at h; exact nomatch h)⟩
  · rw [hr] at h'
    cases hx : d.handles[n + 1]? with
    | none => rw [hx] at h'; exact nomatch h'
    | some x =>
      rw [hx] at h'
      cases h'
      refine ⟨rfl, fun w w' h1 h2 k hk => ?_⟩
      rw [widths_some.2 ⟨d, hd, rfl⟩] at h1
      cases h1
      cases h2
      rw [List.getElem?_insertIdx]
      split
      · next hlt => rw [List.getElem?_eraseIdx_of_lt hlt]
      · rw [List.getElem?_eraseIdx_of_ge (by omega), Nat.sub_add_cancel (by omega)]

theorem opAppend_back (o : Option (ContourOp (MContour PD))) (a : MContour PD) (i : MInner PD) (n : Nat) :
    opSub (opAppend o a) 0 n = .ok o ↔ ∀ w, widths (⟨i, o⟩ : MContour PD) = some w → w.length = n + 1 := by
  cases o with
  | none => exact ⟨fun _ w h => (nomatch h), fun _ => rfl⟩
  | some o =>
    cases o with
    | pap d => exact ⟨fun _ w h => (nomatch h), fun _ => rfl⟩
    | dash d => exact ⟨fun _ w h => (nomatch h), fun _ => rfl⟩
    | vws d =>
      have hd : ∃ e, d.append a = { d with handles := d.handles ++ e } := by
        unfold VwsContour.append
        split
        · exact ⟨_, rfl⟩
        · exact ⟨_, by rw [pushLast_eq]⟩
        · exact ⟨_, by rw [pushLast_eq]⟩
      obtain ⟨e, he⟩ := hd
      simp only [opAppend, opSub, he]
      rw [fmap_ok]
      constructor
      · rintro ⟨v, hv, hd⟩ w hw
        cases hw
        obtain ⟨h1, rfl⟩ := (vws_sub_ok (Nat.zero_le n)).1 hv
        have := congrArg (fun o => ((widths (⟨i, o⟩ : MContour PD)).map List.length).getD 0) hd
        simp only [widths, Option.map_some, Option.getD_some, List.drop_zero, List.length_take] at this h1
        omega
      · intro h
        have h := h _ rfl
        refine ⟨d, (vws_sub_ok (Nat.zero_le n)).2 ⟨?_, ?_⟩, rfl⟩
        · simp only [List.length_append]
          omega
        · simp only [List.drop_zero]
          rw [List.take_left' h]

/-- **C131.** What was appended can be cut off again; the contour is restored if and only if it had one width handle
more than points. -/
theorem C131_append (c c' a : MContour PD) (h : (Edit.append a).run c = .ok c') :
    ((Edit.sub 0 (pts c.inner).length).run c' = .ok c ↔ ∀ w, widths c = some w → w.length = (pts c.inner).length + 1) ∧
    ∀ c'', (Edit.sub 0 (pts c.inner).length).run c' = .ok c'' → c''.inner = c.inner := by
  rcases c with ⟨i, o⟩
  unfold Edit.run MContour.append at h
  cases hi : i.append a.inner with
  | err e => simp only [hi] at h; exact nomatch h
  | panic => simp only [hi] at h; exact nomatch h
  | ok j =>
    simp only [hi, Out.bind_ok] at h
    cases h
    have hb := append_back hi
    rw [← opAppend_back o a i]
    unfold Edit.run MContour.sub
    simp only [hb, Out.bind_ok]
    cases hs : opSub (opAppend o a) 0 (pts i).length with
    | err e => exact ⟨⟨fun h => (nomatch h), fun h => (nomatch h)⟩, fun c'' h => (nomatch h)⟩
    | panic => exact ⟨⟨fun h => (nomatch h), fun h => (nomatch h)⟩, fun c'' h => (nomatch h)⟩
    | ok x =>
      simp only [Out.bind_ok, Out.ok.injEq, MContour.mk.injEq, true_and]
      exact fun c'' h => h ▸ rfl

/-- **C131.** Reversing the points twice restores the contour. -/
theorem C131_reverse (c : MContour PD) : history c [.reverse, .reverse] = .ok c := by
  rcases c with ⟨i, o⟩
  simp only [history, Edit.run, Out.bind_ok, MContour.reversePoints, reverse_back]

/-- **C131.** A contour that is opened and closed again is restored if and only if it was closed with a curve. -/
theorem C131_open (c c' : MContour PD) (h : (Edit.setOpen).run c = .ok c') :
    Edit.setClosed.run c' = .ok c ↔ FirstIs .curve false c.inner := by
  rcases c with ⟨i, o⟩
  obtain ⟨j, hj, rfl⟩ := fmap_ok.1 h
  cases i with
  | cubic c =>
    cases c with
    | nil => exact nomatch hj
    | cons p c =>
      cases hj
      rcases p with ⟨x, y, t, a, b, n, d, m⟩
      simp [Edit.run, MContour.setClosed, MInner.setClosed, FirstIs, eq_comm]
  | quad c =>
    cases c with
    | nil => exact nomatch hj
    | cons p c =>
      cases hj
      rcases p with ⟨x, y⟩
      simp [Edit.run, MContour.setClosed, MInner.setClosed, FirstIs, eq_comm]
  | hyper c =>
    cases hj
    rcases c with ⟨l, b⟩
    simp [Edit.run, MContour.setClosed, MInner.setClosed, FirstIs, eq_comm]

/-- **C131.** A contour that is closed and opened again is restored if and only if it was open. -/
theorem C131_close (c c' : MContour PD) (h : (Edit.setClosed).run c = .ok c') :
    Edit.setOpen.run c' = .ok c ↔ FirstIs .move true c.inner := by
  rcases c with ⟨i, o⟩
  obtain ⟨j, hj, rfl⟩ := fmap_ok.1 h
  cases i with
  | cubic c =>
    cases c with
    | nil => exact nomatch hj
    | cons p c =>
      cases hj
      rcases p with ⟨x, y, t, a, b, n, d, m⟩
      simp [Edit.run, MContour.setOpen, MInner.setOpen, FirstIs, eq_comm]
  | quad c =>
    cases c with
    | nil => exact nomatch hj
    | cons p c =>
      cases hj
      rcases p with ⟨x, y⟩
      simp [Edit.run, MContour.setOpen, MInner.setOpen, FirstIs, eq_comm]
  | hyper c =>
    cases hj
    rcases c with ⟨l, b⟩
    simp [Edit.run, MContour.setOpen, MInner.setOpen, FirstIs, eq_comm]

/-- **C131, exactly.** An edit and its counterpart restore the contour if and only if the condition on the edit holds. -/
theorem C131_exact (c c' : MContour PD) (e u : Edit PD) (h : e.run c = .ok c') (hu : Counterpart c e u) :
    u.run c' = .ok c ↔ Restores c e := by
  cases e with
  | append a =>
    cases u <;> first | exact hu.elim | skip
    obtain ⟨rfl, rfl⟩ := hu
    exact (C131_append c c' a h).1
  | delete n =>
    cases u <;> first | exact hu.elim | skip
    obtain ⟨rfl, hp⟩ := hu
    exact (C131_delete c c' _ _ hp h).1
  | insert n p =>
    cases u <;> first | exact hu.elim | skip
    cases hu
    exact ⟨fun _ => trivial, fun _ => C131_insert c c' _ _ h⟩
  | sub s e => cases u <;> exact nomatch hu
  | reverse =>
    cases u <;> first | exact hu.elim | skip
    cases h
    exact ⟨fun _ => trivial, fun _ => C131_reverse c⟩
  | setOpen =>
    cases u <;> first | exact hu.elim | skip
    exact C131_open c c' h
  | setClosed =>
    cases u <;> first | exact hu.elim | skip
    exact C131_close c c' h

theorem history_append (c : MContour PD) (es us : List (Edit PD)) :
    history c (es ++ us) = history c es >>= fun d => history d us := by
  induction es generalizing c with
  | nil => rfl
  | cons e es ih =>
    simp only [List.cons_append, history]
    cases e.run c with
    | ok d => simp only [Out.bind_ok, ih]
    | err x => rfl
    | panic => rfl

/-- **C131, for the edits that can be taken back.**  Any history of edits, each of which its counterpart restores, is taken
back by the counterparts in the opposite order.  For other edits this is false: `C131_false`. -/
theorem C131_partial (c : MContour PD) (es us : List (Edit PD)) (h : TakenBack c es us) :
    ∃ c', history c es = .ok c' ∧ history c' us = .ok c := by
  induction h with
  | nil => exact ⟨_, rfl, rfl⟩
  | @cons c d e u es us he hu hr _ ih =>
    obtain ⟨c', h1, h2⟩ := ih
    refine ⟨c', by simp only [history, he, Out.bind_ok, h1], ?_⟩
    rw [history_append, h2, Out.bind_ok]
    simp only [history]
    rw [(C131_exact c d e u he hu).2 hr]
    rfl

/-- **C131 is false of the code**: of every stroked contour whose handles are in step with its points the last point
can be deleted, but inserting it again panics. -/
theorem C131_false (c c' : MContour PD) (n : Nat) (p : MPoint PD) (hw : (widths c).isSome = true) (hs : InStep 0 c)
    (hn : (pts c.inner).length = n + 1) (hp : (pts c.inner)[n]? = some p) (h : (Edit.delete n).run c = .ok c') :
    (Edit.insert n p).run c' = .panic := by
  obtain ⟨w, hw⟩ := Option.isSome_iff_exists.1 hw
  have := hs w hw
  exact (C131_delete c c' n p hp h).2.2 ⟨w, hw, by omega⟩

example : ∃ c' : MContour Unit, (Edit.delete 2).run (strokeSample 3 3) = .ok c' ∧ (Edit.insert 2 (.cubic {})).run c' = .panic :=
  ⟨_, rfl, rfl⟩

example : TakenBack (strokeSample 3 4) [.insert 1 (.cubic {}), .reverse, .append (strokeSample 2 2), .delete 0]
    [.insert 0 (.cubic {}), .sub 0 4, .reverse, .delete 1] :=
  .cons (us := [_, _, _]) rfl rfl trivial (.cons (us := [_, _]) rfl trivial trivial (.cons (us := [_]) rfl ⟨rfl, rfl⟩
    (by intro w hw; cases hw; rfl) (.cons (us := []) rfl ⟨rfl, rfl⟩ (by intro w hw; cases hw; rfl) .nil)))

example (o : Option (ContourOp (MContour Unit))) : ∃ c', Edit.setOpen.run ⟨.cubic [Sample.pt .line 0 0, Sample.pt .line 1 0], o⟩ = .ok c' ∧
    Edit.setClosed.run c' ≠ .ok ⟨.cubic [Sample.pt .line 0 0, Sample.pt .line 1 0], o⟩ :=
  ⟨_, rfl, fun h => by
    obtain ⟨p, h1, h2⟩ := (C131_open _ _ rfl).1 h
    cases h1
    exact nomatch h2⟩

end GP
