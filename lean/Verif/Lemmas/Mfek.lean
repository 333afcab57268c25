import Verif.Spec.Mfek
import Mathlib.Data.List.InsertIdx
/-!
# Lemmas on the editor's contours
-/
open Fl
namespace GP
open Spec

variable {PD : Type}

theorem len_pts (i : MInner PD) : i.len = (pts i).length := by
  cases i <;> simp [MInner.len, pts]

theorem getPoint_pts (i : MInner PD) (n : Nat) : i.getPoint n = (pts i)[n]? := by
  cases i <;> simp [MInner.getPoint, pts]

theorem slice_ok {α : Type} {l r : List α} {s e : Nat} :
    MInner.vecSlice l s e = .ok r ↔ s ≤ e ∧ e ≤ l.length ∧ r = (l.take e).drop s := by
  unfold MInner.vecSlice
  by_cases h : s ≤ e ∧ e ≤ l.length
  · rw [if_pos h, Out.ok.injEq]
    exact ⟨fun e => ⟨h.1, h.2, e.symm⟩, fun e => e.2.2.symm⟩
  · rw [if_neg h]
    exact ⟨fun e => (nomatch e), fun e => absurd ⟨e.1, e.2.1⟩ h⟩

theorem remove_ok {α : Type} {l r : List α} {i : Nat} :
    MInner.vecRemove l i = .ok r ↔ i < l.length ∧ r = l.eraseIdx i := by
  unfold MInner.vecRemove
  by_cases h : i < l.length
  · rw [if_pos h, Out.ok.injEq]
    exact ⟨fun e => ⟨h, e.symm⟩, fun e => e.2.symm⟩
  · rw [if_neg h]
    exact ⟨fun e => (nomatch e), fun e => absurd e.1 h⟩

theorem fmap_ok {ε α β : Type} {f : α → β} {x : Out ε α} {b : β} : f <$> x = .ok b ↔ ∃ a, x = .ok a ∧ f a = b := by
  cases x with
  | ok a => simp
  | err e => simp
  | panic => simp

/-- The openness kept by hyperbezier contours. -/
def hyperOpen : MInner PD → Option Bool
  | .hyper c => some c.isOpen
  | _ => none

/-- A contour is its kind, its points and, for hyperbeziers, its openness. -/
theorem inner_ext {i j : MInner PD} (hk : kind i = kind j) (hp : pts i = pts j) (ho : hyperOpen i = hyperOpen j) : i = j := by
  cases i with
  | cubic c =>
    cases j with
    | cubic d => rw [(List.map_inj_right fun _ _ h => MPoint.cubic.inj h).1 hp]
    | quad d => exact nomatch hk
    | hyper d => exact nomatch hk
  | quad c =>
    cases j with
    | cubic d => exact nomatch hk
    | quad d => rw [(List.map_inj_right fun _ _ h => MPoint.quad.inj h).1 hp]
    | hyper d => exact nomatch hk
  | hyper c =>
    cases j with
    | cubic d => exact nomatch hk
    | quad d => exact nomatch hk
    | hyper d =>
      have h1 := (List.map_inj_right fun _ _ h => MPoint.hyper.inj h).1 hp
      have h2 := Option.some.inj ho
      cases c
      cases d
      cases h1
      cases h2
      rfl

theorem sub_ok {i j : MInner PD} {s e : Nat} : i.sub s e = .ok j ↔
    s ≤ e ∧ e ≤ (pts i).length ∧ kind j = kind i ∧ pts j = ((pts i).take e).drop s ∧ hyperOpen j = hyperOpen i := by
  constructor
  · intro h
    cases i with
    | cubic c =>
      obtain ⟨r, h0, rfl⟩ := fmap_ok.1 h
      obtain ⟨h1, h2, rfl⟩ := slice_ok.1 h0
      exact ⟨h1, by simpa [pts] using h2, rfl, by simp [pts, List.map_drop, List.map_take], rfl⟩
    | quad c =>
      obtain ⟨r, h0, rfl⟩ := fmap_ok.1 h
      obtain ⟨h1, h2, rfl⟩ := slice_ok.1 h0
      exact ⟨h1, by simpa [pts] using h2, rfl, by simp [pts, List.map_drop, List.map_take], rfl⟩
    | hyper c =>
      obtain ⟨r, h0, rfl⟩ := fmap_ok.1 h
      obtain ⟨h1, h2, rfl⟩ := slice_ok.1 h0
      exact ⟨h1, by simpa [pts] using h2, rfl, by simp [pts, List.map_drop, List.map_take], rfl⟩
  · rintro ⟨h1, h2, h3, h4, h5⟩
    have key : ∀ j', i.sub s e = .ok j' → kind j' = kind i → pts j' = ((pts i).take e).drop s →
        hyperOpen j' = hyperOpen i → i.sub s e = .ok j := fun j' h k p o => by
      rw [h, inner_ext (h3.trans k.symm) (h4.trans p.symm) (h5.trans o.symm)]
    cases i with
    | cubic c =>
      refine key (.cubic ((c.take e).drop s)) (fmap_ok.2 ⟨_, slice_ok.2 ⟨h1, by simpa [pts] using h2, rfl⟩, rfl⟩) rfl ?_ rfl
      simp [pts, List.map_drop, List.map_take]
    | quad c =>
      refine key (.quad ((c.take e).drop s)) (fmap_ok.2 ⟨_, slice_ok.2 ⟨h1, by simpa [pts] using h2, rfl⟩, rfl⟩) rfl ?_ rfl
      simp [pts, List.map_drop, List.map_take]
    | hyper c =>
      refine key (.hyper { c with points := (c.points.take e).drop s })
        (fmap_ok.2 ⟨_, slice_ok.2 ⟨h1, by simpa [pts] using h2, rfl⟩, rfl⟩) rfl ?_ rfl
      simp [pts, List.map_drop, List.map_take]

theorem append_ok {i j k : MInner PD} : i.append j = .ok k ↔
    kind i = kind j ∧ kind k = kind i ∧ pts k = pts i ++ pts j ∧ hyperOpen k = hyperOpen i := by
  constructor
  · intro h
    cases i <;> cases j <;> (cases h <;> exact ⟨rfl, rfl, by simp [pts], rfl⟩)
  · rintro ⟨h1, h2, h3, h4⟩
    have key : ∀ k', i.append j = .ok k' → kind k' = kind i → pts k' = pts i ++ pts j → hyperOpen k' = hyperOpen i →
        i.append j = .ok k := fun k' h a b c => by
      rw [h, inner_ext (h2.trans a.symm) (h3.trans b.symm) (h4.trans c.symm)]
    cases i <;> cases j <;> first | (cases h1; done) | exact key _ rfl rfl (by simp [pts]) rfl

theorem append_err {i j : MInner PD} : (i.append j = .err .mismatch ↔ kind i ≠ kind j) ∧ i.append j ≠ .panic := by
  cases i <;> cases j <;> simp [MInner.append, kind]

theorem delete_ok {i j : MInner PD} {n : Nat} : i.delete n = .ok j ↔
    n < (pts i).length ∧ kind j = kind i ∧ pts j = (pts i).eraseIdx n ∧ hyperOpen j = hyperOpen i := by
  constructor
  · intro h
    cases i with
    | cubic c =>
      obtain ⟨r, h0, rfl⟩ := fmap_ok.1 h
      obtain ⟨h1, rfl⟩ := remove_ok.1 h0
      exact ⟨by simpa [pts] using h1, rfl, by simp [pts, List.eraseIdx_map], rfl⟩
    | quad c =>
      obtain ⟨r, h0, rfl⟩ := fmap_ok.1 h
      obtain ⟨h1, rfl⟩ := remove_ok.1 h0
      exact ⟨by simpa [pts] using h1, rfl, by simp [pts, List.eraseIdx_map], rfl⟩
    | hyper c =>
      obtain ⟨r, h0, rfl⟩ := fmap_ok.1 h
      obtain ⟨h1, rfl⟩ := remove_ok.1 h0
      exact ⟨by simpa [pts] using h1, rfl, by simp [pts, List.eraseIdx_map], rfl⟩
  · rintro ⟨h1, h2, h3, h4⟩
    have key : ∀ k, i.delete n = .ok k → kind k = kind i → pts k = (pts i).eraseIdx n → hyperOpen k = hyperOpen i →
        i.delete n = .ok j := fun k h a b c => by
      rw [h, inner_ext (h2.trans a.symm) (h3.trans b.symm) (h4.trans c.symm)]
    cases i with
    | cubic c =>
      refine key (.cubic (c.eraseIdx n)) (fmap_ok.2 ⟨_, remove_ok.2 ⟨by simpa [pts] using h1, rfl⟩, rfl⟩) rfl ?_ rfl
      simp [pts, List.eraseIdx_map]
    | quad c =>
      refine key (.quad (c.eraseIdx n)) (fmap_ok.2 ⟨_, remove_ok.2 ⟨by simpa [pts] using h1, rfl⟩, rfl⟩) rfl ?_ rfl
      simp [pts, List.eraseIdx_map]
    | hyper c =>
      refine key (.hyper { c with points := c.points.eraseIdx n })
        (fmap_ok.2 ⟨_, remove_ok.2 ⟨by simpa [pts] using h1, rfl⟩, rfl⟩) rfl ?_ rfl
      simp [pts, List.eraseIdx_map]

theorem insert_ok {i j : MInner PD} {n : Nat} {p : MPoint PD} (h : insertPoint i n p = .ok j) :
    n ≤ (pts i).length ∧ kind j = kind i ∧ pts j = (pts i).insertIdx n p := by
  cases i <;> cases p <;> simp only [insertPoint] at h <;> first
    | (cases h; done)
    | (split at h
       · cases h
         next hn => exact ⟨by simpa [pts] using hn, rfl, by simp [pts, List.map_insertIdx]⟩
       · exact nomatch h)

theorem pts_reverse (i : MInner PD) : pts i.reversePoints = (pts i).reverse ∧ kind i.reversePoints = kind i := by
  cases i <;> simp [MInner.reversePoints, pts, kind]

theorem setOpen_len {i j : MInner PD} (h : i.setOpen = .ok j) : (pts j).length = (pts i).length := by
  cases i with
  | cubic c => cases c <;> (cases h <;> simp [pts])
  | quad c => cases c <;> (cases h <;> simp [pts])
  | hyper c => cases h; simp [pts]

theorem setClosed_len {i j : MInner PD} (h : i.setClosed = .ok j) : (pts j).length = (pts i).length := by
  cases i with
  | cubic c => cases c <;> (cases h <;> simp [pts])
  | quad c => cases c <;> (cases h <;> simp [pts])
  | hyper c => cases h; simp [pts]

/-! ## Width handles -/

theorem vws_sub_ok {v w : VwsContour} {b e : Nat} (hbe : b ≤ e) : v.sub b e = .ok w ↔
    e < v.handles.length ∧ w = { v with handles := (v.handles.take (e + 1)).drop b } := by
  unfold VwsContour.sub
  by_cases h : b ≤ v.handles.length ∧ b ≤ e + 1 ∧ e + 1 - b ≤ v.handles.length - b
  · rw [if_pos h, Out.ok.injEq, List.take_drop, show b + (e + 1 - b) = e + 1 by omega]
    exact ⟨fun k => ⟨by omega, k.symm⟩, fun k => k.2.symm⟩
  · rw [if_neg h]
    exact ⟨fun k => (nomatch k), fun k => absurd ⟨by omega, by omega, by omega⟩ h⟩

theorem pushLast_eq (n : Nat) (l : List VwsHandle) :
    VwsContour.pushLast n l = l ++ List.replicate n (l.getLast?.getD VwsContour.defaultHandle) := by
  induction n generalizing l with
  | zero => simp [VwsContour.pushLast]
  | succ n ih =>
    rw [VwsContour.pushLast, ih, List.getLast?_concat, List.append_assoc]
    simp [List.replicate_succ]

theorem vws_insert_ok {v w : VwsContour} {n : Nat} : v.insertOp n = .ok w ↔
    ∃ h, v.handles[n]? = some h ∧ w = { v with handles := v.handles.insertIdx n h } := by
  unfold VwsContour.insertOp
  cases h : v.handles[n]? with
  | none => simp
  | some x => simp [eq_comm]

theorem vws_remove_ok {v w : VwsContour} {n : Nat} : v.removeOp n = .ok w ↔
    n < v.handles.length ∧ w = { v with handles := v.handles.eraseIdx n } := by
  unfold VwsContour.removeOp
  rw [fmap_ok]
  constructor
  · rintro ⟨a, h, rfl⟩
    obtain ⟨h1, rfl⟩ := remove_ok.1 h
    exact ⟨h1, rfl⟩
  · rintro ⟨h, rfl⟩
    exact ⟨_, remove_ok.2 ⟨h, rfl⟩, rfl⟩

theorem sub_no_err (i : MInner PD) (s e : Nat) (x : MfekErr) : i.sub s e ≠ .err x := by
  have h : ∀ {α : Type} (l : List α), MInner.vecSlice l s e ≠ .err x := fun l => by
    unfold MInner.vecSlice
    split <;> (intro h; cases h)
  intro hi
  cases i with
  | cubic c =>
    unfold MInner.sub at hi
    cases hs : MInner.vecSlice c s e with
    | ok a => simp [hs] at hi
    | err y => simp only [hs] at hi; cases hi; exact h c hs
    | panic => simp [hs] at hi
  | quad c =>
    unfold MInner.sub at hi
    cases hs : MInner.vecSlice c s e with
    | ok a => simp [hs] at hi
    | err y => simp only [hs] at hi; cases hi; exact h c hs
    | panic => simp [hs] at hi
  | hyper c =>
    unfold MInner.sub at hi
    cases hs : MInner.vecSlice c.points s e with
    | ok a => simp [hs] at hi
    | err y => simp only [hs] at hi; cases hi; exact h c.points hs
    | panic => simp [hs] at hi

theorem opSub_no_err (o : Option (ContourOp (MContour PD))) (s e : Nat) (x : MfekErr) : opSub o s e ≠ .err x := by
  unfold opSub
  split
  · next d =>
    intro h
    unfold VwsContour.sub at h
    split at h <;> exact nomatch h
  · exact fun h => nomatch h

theorem widths_some {c : MContour PD} {w : List VwsHandle} : widths c = some w ↔
    ∃ d, c.operation = some (.vws d) ∧ d.handles = w := by
  unfold widths
  rcases c with ⟨i, o⟩
  cases o with
  | none => simp
  | some o => cases o <;> simp

end GP
