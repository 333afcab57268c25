import Verif.Model.Contour
/-! Helper lemmas on index arithmetic. -/
open Fl
namespace GP
variable {PD T : Type}

theorem idxSane_ok {l : List T} {i : Nat} (h2 : 2 ≤ l.length) (hi : i < l.length) : idxSane l i = .ok () := by
  unfold idxSane
  rw [if_neg (by omega), if_neg (by omega), if_neg (by omega)]

theorem prevNext_ok {l : List T} {i : Nat} (h2 : 2 ≤ l.length) (hi : i < l.length) :
    prevNext l i = .ok (if i = 0 then l.length - 1 else i - 1, if i = l.length - 1 then 0 else i + 1) := by
  unfold prevNext; rw [idxSane_ok h2 hi]; rfl

theorem prev_ok {l : List T} {i : Nat} (h2 : 2 ≤ l.length) (hi : i < l.length) :
    prev l i = .ok (if i = 0 then l.length - 1 else i - 1) := by
  unfold prev; rw [prevNext_ok h2 hi]; rfl

theorem next_ok {l : List T} {i : Nat} (h2 : 2 ≤ l.length) (hi : i < l.length) :
    next l i = .ok (if i = l.length - 1 then 0 else i + 1) := by
  unfold next; rw [prevNext_ok h2 hi]; rfl

theorem idxWhichEnd_ok {l : List T} {i : Nat} (h2 : 2 ≤ l.length) (hi : i < l.length) :
    idxWhichEnd l i = .ok (if i = 0 then some .head else if i = l.length - 1 then some .tail else none) := by
  unfold idxWhichEnd; rw [idxSane_ok h2 hi]; rfl

theorem idxSane_err {l : List T} {i : Nat} (h : ¬ (2 ≤ l.length ∧ i < l.length)) :
    idxSane l i = .err (if i ≥ l.length then .pointIdxOutOfBounds i l.length else .contourLenOne) := by
  unfold idxSane
  split
  · rfl
  · rw [if_pos (by omega)]

theorem contourPrevNext_ok {c : Contour PD} {i : Nat} (h2 : 2 ≤ c.length) (hi : i < c.length) :
    contourPrevNext c i = .ok
      (if isOpen c ∧ i = 0 then none else some (if i = 0 then c.length - 1 else i - 1),
       if isOpen c ∧ i = c.length - 1 then none else some (if i = c.length - 1 then 0 else i + 1)) := by
  unfold contourPrevNext idxAtStartOrEnd
  rw [prevNext_ok h2 hi, idxWhichEnd_ok h2 hi, prev_ok h2 hi, next_ok h2 hi]
  by_cases ho : isOpen c
  · by_cases h0 : i = 0
    · subst h0
      simp [ho]
      omega
    · by_cases h1 : i = c.length - 1
      · have h1' : ¬ c.length - 1 = 0 := by omega
        subst h1
        simp [ho, h1']
      · simp [ho, h0, h1]
  · simp [ho]

theorem contourPrevNext_err {c : Contour PD} {i : Nat} (h : ¬ (2 ≤ c.length ∧ i < c.length)) :
    contourPrevNext c i = .err (if i ≥ c.length then .pointIdxOutOfBounds i c.length else .contourLenOne) := by
  unfold contourPrevNext prevNext
  rw [idxSane_err h]; rfl

theorem handlesAt_some {c : Contour PD} {i : Nat} (hi : i < c.length) :
    handlesAt c (some i) = .ok (c[i].a, c[i].b) := by
  unfold handlesAt
  simp [hi]

theorem contourPrevNext_lt {c : Contour PD} {i : Nat} {p n : Option Nat}
    (h : contourPrevNext c i = .ok (p, n)) : (∀ j, p = some j → j < c.length) ∧ (∀ j, n = some j → j < c.length) := by
  by_cases hh : 2 ≤ c.length ∧ i < c.length
  · rw [contourPrevNext_ok hh.1 hh.2] at h
    simp only [Out.ok.injEq, Prod.mk.injEq] at h
    obtain ⟨rfl, rfl⟩ := h
    constructor
    · intro j hj
      split at hj
      · cases hj
      · injection hj with hj; split at hj <;> omega
    · intro j hj
      split at hj
      · cases hj
      · injection hj with hj; split at hj <;> omega
  · rw [contourPrevNext_err hh] at h; cases h

theorem handlesAt_ok {c : Contour PD} {i : Option Nat} (hi : ∀ j, i = some j → j < c.length) :
    ∃ hs, handlesAt c i = .ok hs := by
  cases i with
  | none => exact ⟨_, rfl⟩
  | some j => exact ⟨_, handlesAt_some (hi j rfl)⟩

end GP
