import Mathlib.Tactic.ByContra
import Verif.Lemmas.Index
import Verif.Spec.Index
import Verif.Props.Sample
import Verif.Props.Decimal
/-!
# C31, C32, C33, C57: neighbours of a point, ends of a contour, smoothness
-/
open Fl
namespace GP
variable {PD T : Type}

/-! ## C31 -/

/-- `next` and `prev` are inverse to each other on valid indices. -/
theorem C31_inverse (l : List T) (i : Nat) (h2 : 2 ≤ l.length) (hi : i < l.length) :
    ∃ p n, prev l i = .ok p ∧ next l i = .ok n ∧ p < l.length ∧ n < l.length ∧
      next l p = .ok i ∧ prev l n = .ok i := by
  refine ⟨_, _, prev_ok h2 hi, next_ok h2 hi, by split <;> omega, by split <;> omega, ?_, ?_⟩
  · rw [next_ok h2 (by split <;> omega)]
    congr 1
    split <;> split <;> omega
  · rw [prev_ok h2 (by split <;> omega)]
    congr 1
    split <;> split <;> omega

/-- `next` applied `k` times. -/
def nextTimes (l : List T) : Nat → Nat → R Nat
  | 0, i => .ok i
  | k + 1, i => nextTimes l k i >>= next l

/-- After `k` steps from `i` one is at `i + k` modulo the length. -/
theorem C31_iterate (l : List T) (i : Nat) (h2 : 2 ≤ l.length) (hi : i < l.length) (k : Nat) :
    nextTimes l k i = .ok ((i + k) % l.length) := by
  induction k with
  | zero => simp [nextTimes, Nat.mod_eq_of_lt hi]
  | succ k ih =>
    have hm := Nat.mod_lt (i + k) (show 0 < l.length by omega)
    rw [nextTimes, ih, Out.bind_ok, next_ok h2 hm]
    congr 1
    rw [← Nat.add_assoc, Nat.add_mod (i + k) 1, Nat.mod_eq_of_lt (show 1 < l.length by omega)]
    split
    next h =>
      rw [h, show l.length - 1 + 1 = l.length by omega, Nat.mod_self]
    next h => exact (Nat.mod_eq_of_lt (by omega)).symm

/-- `length` steps come back, and in between every index is visited exactly once. -/
theorem C31_cycle (l : List T) (i : Nat) (h2 : 2 ≤ l.length) (hi : i < l.length) :
    nextTimes l l.length i = .ok i ∧
    ∀ j, j < l.length → ∃ k, (k < l.length ∧ nextTimes l k i = .ok j) ∧
      ∀ k', k' < l.length → nextTimes l k' i = .ok j → k' = k := by
  have red : ∀ m, m < 2 * l.length → m % l.length = if m < l.length then m else m - l.length := by
    intro m hm
    split
    next h => exact Nat.mod_eq_of_lt h
    next h => rw [Nat.mod_eq_sub_mod (by omega), Nat.mod_eq_of_lt (by omega)]
  constructor
  · rw [C31_iterate l i h2 hi, Nat.add_mod_right, Nat.mod_eq_of_lt hi]
  · intro j hj
    refine ⟨if i ≤ j then j - i else j + l.length - i, ⟨by split <;> omega, ?_⟩, ?_⟩
    · rw [C31_iterate l i h2 hi]
      congr 1
      split
      · rw [red _ (by omega), if_pos (by omega)]; omega
      · rw [red _ (by omega), if_neg (by omega)]; omega
    · intro k' hk' h
      rw [C31_iterate l i h2 hi] at h
      injection h with h
      rw [red _ (by omega)] at h
      split at h <;> split <;> omega

example : 2 ≤ [Sample.pt .line 0 0, Sample.pt .line 1 0, Sample.pt .line 1 1].length ∧
    2 < [Sample.pt .line 0 0, Sample.pt .line 1 0, Sample.pt .line 1 1].length := by decide

/-! ## C32 -/

/-- Out of range: the out-of-bounds error. -/
theorem C32_out_of_range (l : List T) (i : Nat) (h : l.length ≤ i) :
    prev l i = .err (.pointIdxOutOfBounds i l.length) ∧ next l i = .err (.pointIdxOutOfBounds i l.length) ∧
    prevNext l i = .err (.pointIdxOutOfBounds i l.length) ∧
    idxWhichEnd l i = .err (.pointIdxOutOfBounds i l.length) := by
  have : idxSane l i = .err (.pointIdxOutOfBounds i l.length) := by
    unfold idxSane; rw [if_pos h]
  simp [prev, next, prevNext, idxWhichEnd, this]

/-- A single element has no neighbours: the length-one error. -/
theorem C32_single (a : T) : prev [a] 0 = .err .contourLenOne ∧ next [a] 0 = .err .contourLenOne := by
  simp [prev, next, prevNext, idxSane]

/-- In all other cases the lookups succeed. -/
theorem C32_succeeds_iff (l : List T) (i : Nat) :
    ((∃ p, prev l i = .ok p) ↔ 2 ≤ l.length ∧ i < l.length) ∧
    ((∃ n, next l i = .ok n) ↔ 2 ≤ l.length ∧ i < l.length) := by
  constructor <;>
  · constructor
    · rintro ⟨p, h⟩
      by_contra hh
      simp [prev, next, prevNext, idxSane_err hh] at h
    · rintro ⟨h2, hi⟩
      exact ⟨_, by first | exact prev_ok h2 hi | exact next_ok h2 hi⟩

/-- Contours of two or more points are open exactly if they start with a move point; shorter ones always. -/
theorem C32_open (c : Contour PD) (h2 : 2 ≤ c.length) : isOpen c = true ↔ Spec.StartsWithMove c := by
  match c, h2 with
  | p :: _ :: _, _ => simp [isOpen, Spec.StartsWithMove]

theorem C32_open_short (c : Contour PD) (h : c.length < 2) : isOpen c = true := by
  rcases c with _ | ⟨p, _ | ⟨q, c⟩⟩
  · rfl
  · rfl
  · simp at h
    omega

/-- The contour-aware lookup: no previous point exactly at the head of an open contour, no next
point exactly at its tail; otherwise the cyclic neighbours. -/
theorem C32_contour (c : Contour PD) (i : Nat) (h2 : 2 ≤ c.length) (hi : i < c.length) :
    ∃ p n, contourPrevNext c i = .ok (p, n) ∧
      (p = none ↔ Spec.StartsWithMove c ∧ i = 0) ∧ (n = none ↔ Spec.StartsWithMove c ∧ i = c.length - 1) ∧
      (∀ j, p = some j → prev c i = .ok j) ∧ (∀ j, n = some j → next c i = .ok j) := by
  rw [← C32_open c h2]
  refine ⟨_, _, contourPrevNext_ok h2 hi, ?_, ?_, ?_, ?_⟩
  · split <;> simp_all
  · split <;> simp_all
  · intro j hj
    rw [prev_ok h2 hi]
    split at hj
    · cases hj
    · injection hj with hj; rw [hj]
  · intro j hj
    rw [next_ok h2 hi]
    split at hj
    · cases hj
    · injection hj with hj; rw [hj]

/-- Nothing in this family panics, and the contour-aware lookup fails exactly when the plain one
does, with the same error. -/
theorem C32_no_panic (c : Contour PD) (i : Nat) :
    contourPrevNext c i ≠ .panic ∧ contourPrevNextHandles c i ≠ .panic ∧
    (∀ e, contourPrevNext c i = .err e ↔ prevNext c i = .err e) := by
  by_cases hh : 2 ≤ c.length ∧ i < c.length
  · have e := contourPrevNext_ok hh.1 hh.2
    have lt := contourPrevNext_lt e
    obtain ⟨hs1, e1⟩ := handlesAt_ok lt.1
    obtain ⟨hs2, e2⟩ := handlesAt_ok lt.2
    refine ⟨by rw [e]; simp, ?_, ?_⟩
    · unfold contourPrevNextHandles
      rw [e]
      simp only [Out.bind_ok]
      rw [e1]
      simp only [Out.bind_ok]
      rw [e2]
      simp
    · intro er; rw [e, prevNext_ok hh.1 hh.2]; simp
  · have e := contourPrevNext_err hh
    refine ⟨by rw [e]; simp, ?_, ?_⟩
    · unfold contourPrevNextHandles; rw [e]; simp
    · intro er; rw [e]; unfold prevNext; rw [idxSane_err hh, Out.bind_err]; simp only [Out.err.injEq]

/-- An open contour of three points. -/
example : Spec.StartsWithMove [Sample.pt .move 0 0, Sample.pt .line 1 0, Sample.pt .line 1 1] ∧
    ¬ Spec.StartsWithMove [Sample.pt .line 0 0, Sample.pt .line 1 0, Sample.pt .line 1 1] := by
  simp [Spec.StartsWithMove, Sample.pt]

/-! ## C33 -/

theorem smooth_ok {near : SmoothTest} {c : Contour PD} {i : Nat} {w : F32} (h2 : 2 ≤ c.length)
    (hi : i < c.length) : ∃ s, isPointSmoothWithin near c i w = .ok s := by
  unfold isPointSmoothWithin
  rw [idxWhichEnd_ok h2 hi, contourPrevNext_ok h2 hi]
  simp only [Out.bind_ok]
  have hp : c[i]? = some c[i] := List.getElem?_eq_getElem hi
  rw [hp]
  simp only [Out.unwrap_some, Out.bind_ok]
  have fin : ∀ a b : Handle, ∃ s, (match (some (a, b) : Option (Handle × Handle)) with
      | none => (.ok false : R Bool)
      | some (Handle.at x1 y1, Handle.at x2 y2) =>
        .ok (near (F32.to64 c[i].x, F32.to64 c[i].y) (F32.to64 x1, F32.to64 y1) (F32.to64 x2, F32.to64 y2)
          (F32.to64 w))
      | some _ => .ok false) = Out.ok s := by
    intro a b
    cases a <;> cases b <;> exact ⟨_, rfl⟩
  by_cases h0 : i = 0
  · subst h0
    simp only [if_true]
    by_cases ho : isOpen c
    · simp only [ho, and_self, if_true]
      exact ⟨_, rfl⟩
    · have hlt : c.length - 1 < c.length := by omega
      simp only [ho, Bool.false_eq_true, false_and, if_false, List.getElem?_eq_getElem hlt,
        Out.unwrap_some, Out.bind_ok]
      exact fin _ _
  · by_cases h1 : i = c.length - 1
    · subst h1
      simp only [h0, if_false, if_true]
      by_cases ho : isOpen c
      · simp only [ho, and_self, if_true]
        exact ⟨_, rfl⟩
      · have hlt : 0 < c.length := by omega
        simp only [ho, Bool.false_eq_true, false_and, if_false, List.getElem?_eq_getElem hlt,
          Out.unwrap_some, Out.bind_ok]
        exact fin _ _
    · simp only [h0, if_false, h1]
      exact fin _ _

/-- Checking smoothness changes only the `smooth` flag of the given point, to the value returned. -/
theorem C33_local (near : SmoothTest) (c c' : Contour PD) (i : Nat) (s : Bool)
    (h : checkSmooth near c i = .ok (s, c')) :
    isPointSmoothWithin near c i defaultTolerance = .ok s ∧ c'.length = c.length ∧
    (∀ j, j ≠ i → c'[j]? = c[j]?) ∧
    (∀ p, c[i]? = some p → c'[i]? = some { p with smooth := s }) := by
  unfold checkSmooth at h
  cases e : isPointSmoothWithin near c i defaultTolerance with
  | err _ => rw [e] at h; cases h
  | panic => rw [e] at h; cases h
  | ok s' =>
    rw [e, Out.bind_ok] at h
    cases h
    refine ⟨rfl, by simp, ?_, ?_⟩
    · intro j hj
      rw [List.getElem?_modify]
      simp [Ne.symm hj]
    · intro p hp
      rw [List.getElem?_modify, hp]; simp

/-- The value is that of the test within 0.01. -/
theorem C33_tolerance (near : SmoothTest) (c c' : Contour PD) (i : Nat) (s : Bool)
    (h : checkSmooth near c i = .ok (s, c')) :
    ∃ w, Spec.FloatText b32 "0.01".toList w ∧ isPointSmoothWithin near c i w = .ok s :=
  ⟨defaultTolerance, (C79_float (by decide) _ _).1 (by decide +kernel), (C33_local near c c' i s h).1⟩

/-- It succeeds exactly on valid indices of contours with at least two points, and never panics. -/
theorem C33_succeeds_iff (near : SmoothTest) (c : Contour PD) (i : Nat) :
    (∃ r, checkSmooth near c i = .ok r) ↔ 2 ≤ c.length ∧ i < c.length := by
  constructor
  · rintro ⟨r, h⟩
    by_contra hh
    unfold checkSmooth isPointSmoothWithin idxWhichEnd at h
    rw [idxSane_err hh] at h
    cases h
  · rintro ⟨h2, hi⟩
    obtain ⟨s, e⟩ := smooth_ok (near := near) (w := defaultTolerance) h2 hi
    unfold checkSmooth
    rw [e]
    exact ⟨_, rfl⟩

theorem C33_no_panic (near : SmoothTest) (c : Contour PD) (i : Nat) : checkSmooth near c i ≠ .panic := by
  intro hp
  by_cases hh : 2 ≤ c.length ∧ i < c.length
  · obtain ⟨r, e⟩ := (C33_succeeds_iff near c i).2 hh
    rw [e] at hp; cases hp
  · unfold checkSmooth isPointSmoothWithin idxWhichEnd at hp
    rw [idxSane_err hh] at hp
    cases hp

/-- The ends of an open contour are never smooth, whatever the handles and the tolerance. -/
theorem C33_open_ends (near : SmoothTest) (c : Contour PD) (i : Nat) (w : F32) (h2 : 2 ≤ c.length)
    (ho : Spec.StartsWithMove c) (hi : i = 0 ∨ i = c.length - 1) :
    isPointSmoothWithin near c i w = .ok false := by
  rw [← C32_open c h2] at ho
  have hlt : i < c.length := by omega
  have hp : c[i]? = some c[i] := List.getElem?_eq_getElem hlt
  unfold isPointSmoothWithin
  rw [idxWhichEnd_ok h2 hlt, contourPrevNext_ok h2 hlt]
  simp only [Out.bind_ok, hp, Out.unwrap_some]
  rcases hi with rfl | h1
  · simp [ho]
  · have h0 : ¬ c.length - 1 = 0 := by omega
    subst h1
    simp only [h0, if_false, if_true, ho, and_self]

/-- A point lacking one of the handles looked at is not smooth; an inner point is judged by its own
two handles. -/
theorem C33_inner (near : SmoothTest) (c : Contour PD) (i : Nat) (w : F32) (hi0 : 0 < i)
    (hi : i < c.length - 1) (p : Point PD) (hp : c[i]? = some p) :
    isPointSmoothWithin near c i w = .ok
      (match p.a, p.b with
        | .at x1 y1, .at x2 y2 => near (F32.to64 p.x, F32.to64 p.y) (F32.to64 x1, F32.to64 y1)
            (F32.to64 x2, F32.to64 y2) (F32.to64 w)
        | _, _ => false) := by
  have h2 : 2 ≤ c.length := by omega
  have hlt : i < c.length := by omega
  have h0 : ¬ i = 0 := by omega
  have h1 : ¬ i = c.length - 1 := by omega
  unfold isPointSmoothWithin
  rw [idxWhichEnd_ok h2 hlt, contourPrevNext_ok h2 hlt]
  simp only [Out.bind_ok, hp, Out.unwrap_some, h0, h1, if_false]
  cases p.a <;> cases p.b <;> rfl

/-! ## C57 -/

open Spec (ownSmooth)

/-- C57 as stated is false: on a closed contour the first point is judged by the incoming handle of
the *last* point.  Here the first point has both handles, the last has none, and the first point is
not smooth whatever the distance test says. -/
theorem C57_false (near : SmoothTest) (hnear : ∀ p a b w, near p a b w = true) :
    ∃ (c : Contour Unit) (p : Point Unit), 2 ≤ c.length ∧ ¬ Spec.StartsWithMove c ∧ c[0]? = some p ∧
      ownSmooth near p defaultTolerance = true ∧
      isPointSmoothWithin near c 0 defaultTolerance = .ok false := by
  refine ⟨[Sample.cv 0 0 1 1 (-1) (-1), Sample.pt .line 5 0], Sample.cv 0 0 1 1 (-1) (-1), by decide, ?_, rfl, ?_, ?_⟩
  · simp [Spec.StartsWithMove, Sample.cv]
  · simp [ownSmooth, Sample.cv, hnear]
  · rfl

/-- What holds: all points except the two ends of the list are judged by their own handles.
(Missing from C57: first and last point of a closed contour.) -/
theorem C57_partial (near : SmoothTest) (c : Contour PD) (i : Nat) (w : F32) (hi0 : 0 < i)
    (hi : i < c.length - 1) (p : Point PD) (hp : c[i]? = some p) :
    isPointSmoothWithin near c i w = .ok (ownSmooth near p w) := C33_inner near c i w hi0 hi p hp

/-- The exact value at the two ends of a closed contour. -/
theorem C57_closed_ends (near : SmoothTest) (c : Contour PD) (w : F32) (h2 : 2 ≤ c.length)
    (hc : ¬ Spec.StartsWithMove c) (p q : Point PD) (hp : c[0]? = some p) (hq : c[c.length - 1]? = some q) :
    isPointSmoothWithin near c 0 w = .ok (ownSmooth near { p with b := q.b } w) ∧
    isPointSmoothWithin near c (c.length - 1) w = .ok (ownSmooth near { q with a := p.a } w) := by
  have ho : isOpen c = false := by
    rw [← C32_open c h2] at hc
    simpa using hc
  have hl : ¬ c.length - 1 = 0 := by omega
  constructor
  · unfold isPointSmoothWithin
    rw [idxWhichEnd_ok h2 (by omega), contourPrevNext_ok h2 (by omega)]
    simp only [Out.bind_ok, hp, Out.unwrap_some, if_true, ho, Bool.false_eq_true, false_and, if_false, hq]
    unfold ownSmooth
    cases p.a <;> cases q.b <;> rfl
  · unfold isPointSmoothWithin
    rw [idxWhichEnd_ok h2 (by omega), contourPrevNext_ok h2 (by omega)]
    simp only [Out.bind_ok, hp, Out.unwrap_some, if_true, ho, Bool.false_eq_true, false_and, if_false, hq, hl]
    unfold ownSmooth
    cases p.a <;> cases q.b <;> rfl

example : (0 < 1 ∧ 1 < [Sample.pt .line 0 0, Sample.cv 1 0 2 0 0 0, Sample.pt .line 1 1].length - 1) ∧
    ¬ Spec.StartsWithMove [Sample.pt .line 0 0, Sample.cv 1 0 2 0 0 0, Sample.pt .line 1 1] := by
  simp [Spec.StartsWithMove, Sample.pt]

end GP
