import Verif.Props.PenOps
import Verif.Props.PenOpsValid
import Verif.Spec.Split
/-!
# Splitting pen operations into contours (C119)
-/
namespace GP
open Spec

theorem splitLoop_closes (l : List PenOp) : ∀ (ko : List (List PenOp)) (kc : List PenOp),
    (closesFrom (beginsMove kc) (l.map PenOp.pathEl) = false → splitLoop ko kc l = .panic) ∧
    (closesFrom (beginsMove kc) (l.map PenOp.pathEl) = true → ∃ r, splitLoop ko kc l = .ok r) := by
  induction l with
  | nil => intro ko kc; exact ⟨fun h => by simp [closesFrom] at h, fun _ => ⟨_, rfl⟩⟩
  | cons o l ih =>
    intro ko kc
    have other : (∀ p, o ≠ .moveTo p) → closesFrom (beginsMove kc) ((o :: l).map PenOp.pathEl) = closesFrom (beginsMove kc) (l.map PenOp.pathEl) →
        splitLoop ko kc (o :: l) = splitLoop ko (kc ++ [o]) l →
        (closesFrom (beginsMove kc) ((o :: l).map PenOp.pathEl) = false → splitLoop ko kc (o :: l) = .panic) ∧
        (closesFrom (beginsMove kc) ((o :: l).map PenOp.pathEl) = true → ∃ r, splitLoop ko kc (o :: l) = .ok r) := by
      intro h1 h2 h3
      have := ih ko (kc ++ [o])
      rw [beginsMove_append _ _ h1] at this
      rw [h2, h3]
      exact this
    cases o with
    | lineTo p => exact other (by simp) rfl rfl
    | quadTo c p => exact other (by simp) rfl rfl
    | curveTo c d p => exact other (by simp) rfl rfl
    | moveTo m => exact ih (if kc.isEmpty then ko else ko ++ [kc]) [.moveTo m]
    | close =>
      match kc with
      | .moveTo m :: kc => exact ih ko (.curveTo m m m :: kc)
      | [] => exact ⟨fun _ => rfl, fun h => by simp [closesFrom, beginsMove, PenOp.pathEl] at h⟩
      | .lineTo _ :: _ => exact ⟨fun _ => rfl, fun h => by simp [closesFrom, beginsMove, PenOp.pathEl] at h⟩
      | .quadTo .. :: _ => exact ⟨fun _ => rfl, fun h => by simp [closesFrom, beginsMove, PenOp.pathEl] at h⟩
      | .curveTo .. :: _ => exact ⟨fun _ => rfl, fun h => by simp [closesFrom, beginsMove, PenOp.pathEl] at h⟩
      | .close :: _ => exact ⟨fun _ => rfl, fun h => by simp [closesFrom, beginsMove, PenOp.pathEl] at h⟩

theorem cutAtMoves_ne {l : List PenOp} (h : l ≠ []) : cutAtMoves l ≠ [] := by
  cases l with
  | nil => exact absurd rfl h
  | cons o l =>
    unfold cutAtMoves
    split
    · simp
    · split <;> simp

theorem cutAtMoves_cons (o : PenOp) (l : List PenOp) : ∃ k ks, cutAtMoves (o :: l) = (o :: k) :: ks := by
  unfold cutAtMoves
  split
  · exact ⟨_, _, rfl⟩
  · split
    · exact ⟨_, _, rfl⟩
    · exact ⟨_, _, rfl⟩

/-- Operations without a `MoveTo` after the first belong to one contour. -/
theorem cutAtMoves_one (o : PenOp) (k : List PenOp) (h : ∀ x ∈ k, isMoveOp x = false) : cutAtMoves (o :: k) = [o :: k] := by
  induction k generalizing o with
  | nil => rfl
  | cons x k ih =>
    rw [cutAtMoves, ih x fun y hy => h y (List.mem_cons_of_mem _ hy)]
    simp [h x (List.mem_cons_self ..)]

/-- A `MoveTo` begins another contour. -/
theorem cutAtMoves_move (o : PenOp) (k : List PenOp) (h : ∀ x ∈ k, isMoveOp x = false) (m : GlifPoint) (l : List PenOp) :
    cutAtMoves (o :: k ++ .moveTo m :: l) = (o :: k) :: cutAtMoves (.moveTo m :: l) := by
  induction k generalizing o with
  | nil =>
    obtain ⟨k', ks, e⟩ := cutAtMoves_cons (.moveTo m) l
    rw [List.cons_append, List.nil_append, cutAtMoves, e]
    simp [isMoveOp]
  | cons x k ih =>
    rw [List.cons_append, cutAtMoves, ih x fun y hy => h y (List.mem_cons_of_mem _ hy)]
    simp [h x (List.mem_cons_self ..)]

/-- What the loop has done when it has read `o :: k` of the contour at hand. -/
theorem splitLoop_cut (l : List PenOp) : ∀ (ko : List (List PenOp)) (o : PenOp) (k : List PenOp) (r : List (List PenOp) × List PenOp),
    o ≠ .close → (∀ x ∈ k, isMoveOp x = false) → splitLoop ko (closedUp (o :: k)) l = .ok r →
    r.2 ≠ [] ∧ r.1 ++ [r.2] = ko ++ (cutAtMoves (o :: k ++ l)).map closedUp := by
  have hcl : ∀ (o : PenOp) (k : List PenOp), ∃ o' k', closedUp (o :: k) = o' :: k' := by
    intro o k
    unfold closedUp
    split
    · split
      · exact ⟨_, _, rfl⟩
      · exact ⟨_, _, rfl⟩
    · exact ⟨_, _, rfl⟩
  induction l with
  | nil =>
    intro ko o k r ho hk h
    cases h
    obtain ⟨o', k', e⟩ := hcl o k
    refine ⟨by rw [e]; simp, ?_⟩
    rw [List.append_nil, cutAtMoves_one o k hk]
    rfl
  | cons x l ih =>
    intro ko o k r ho hk h
    have other : isMoveOp x = false → x ≠ .close → splitLoop ko (closedUp (o :: k)) (x :: l) = splitLoop ko (closedUp (o :: k) ++ [x]) l →
        r.2 ≠ [] ∧ r.1 ++ [r.2] = ko ++ (cutAtMoves (o :: k ++ x :: l)).map closedUp := by
      intro h1 h2 h3
      have e : closedUp (o :: k) ++ [x] = closedUp (o :: (k ++ [x])) := by
        unfold closedUp
        have hm : PenOp.close ∈ o :: (k ++ [x]) ↔ PenOp.close ∈ o :: k := by
          simp only [List.mem_cons, List.mem_append]
          constructor
          · rintro (h | h | h | h)
            · exact .inl h
            · exact .inr h
            · exact absurd h.symm h2
            · cases h
          · rintro (h | h)
            · exact .inl h
            · exact .inr (.inl h)
        by_cases hc : PenOp.close ∈ o :: k
        · rw [if_pos hc, if_pos (hm.2 hc)]
          cases o <;> simp [h2]
        · rw [if_neg hc, if_neg fun e => hc (hm.1 e)]
          rfl
      rw [h3, e] at h
      have := ih ko o (k ++ [x]) r ho (fun y hy => by
        rcases List.mem_append.1 hy with hy | hy
        · exact hk y hy
        · rw [List.mem_singleton.1 hy]; exact h1) h
      simpa using this
    cases x with
    | lineTo p => exact other rfl (by simp) rfl
    | quadTo c p => exact other rfl (by simp) rfl
    | curveTo c d p => exact other rfl (by simp) rfl
    | moveTo m =>
      obtain ⟨o', k', e⟩ := hcl o k
      rw [splitLoop, e, List.isEmpty_cons, ← e] at h
      have := ih (ko ++ [closedUp (o :: k)]) (.moveTo m) [] r (by simp) (by simp) h
      rw [cutAtMoves_move o k hk, List.map_cons]
      simpa using this
    | close =>
      have hno : PenOp.close ∉ o :: k ∧ ∃ m, o = .moveTo m := by
        by_contra hcon
        have : splitLoop ko (closedUp (o :: k)) (.close :: l) = .panic := by
          unfold closedUp
          by_cases hc : PenOp.close ∈ o :: k
          · rw [if_pos hc]
            cases o with
            | close => exact absurd rfl ho
            | _ => rfl
          · rw [if_neg hc]
            cases o with
            | moveTo m => exact absurd ⟨hc, m, rfl⟩ hcon
            | _ => rfl
        rw [this] at h
        cases h
      obtain ⟨hc, m, rfl⟩ := hno
      have e : closedUp (PenOp.moveTo m :: k) = .moveTo m :: k := by unfold closedUp; rw [if_neg hc]
      rw [e, splitLoop] at h
      have e' : closedUp (PenOp.moveTo m :: (k ++ [.close])) = .curveTo m m m :: k := by
        unfold closedUp
        rw [if_pos (by simp)]
        simp only [List.filter_append]
        have : k.filter (fun x => decide (x ≠ PenOp.close)) = k := by
          rw [List.filter_eq_self]
          intro x hx
          rw [decide_eq_true_eq]
          rintro rfl
          exact hc (List.mem_cons_of_mem _ hx)
        rw [this]
        simp
      rw [← e'] at h
      have := ih ko (.moveTo m) (k ++ [.close]) r (by simp) (fun y hy => by
        rcases List.mem_append.1 hy with hy | hy
        · exact hk y hy
        · rw [List.mem_singleton.1 hy]; rfl) h
      simpa using this

theorem cutAtMoves_length (l : List PenOp) (h : l ≠ []) : (cutAtMoves l).length = contourCount l := by
  induction l with
  | nil => exact absurd rfl h
  | cons o l ih =>
    cases l with
    | nil => cases o <;> rfl
    | cons x l =>
      obtain ⟨k, ks, e⟩ := cutAtMoves_cons x l
      have := ih (by simp)
      rw [e] at this
      rw [cutAtMoves, e]
      unfold contourCount at this ⊢
      simp only [List.head?_cons, Option.any_some, List.length_cons] at this ⊢
      by_cases ho : isMoveOp o = true <;> by_cases hx : isMoveOp x = true <;> simp [ho, hx] at this ⊢ <;> omega

/-- **C119.** Two or more pen operations of which every `Close` closes something are split into contours before every
`MoveTo`, and nothing else is done to them but that of each closed contour the `MoveTo` becomes a curve to the same place
and the `Close` is left out. -/
theorem C119_split (ops : List PenOp) (h : 2 ≤ ops.length) (hc : ClosesOpened (ops.map PenOp.pathEl)) :
    splitPenOperations ops = .ok ((cutAtMoves ops).map closedUp) := by
  unfold splitPenOperations
  rw [if_neg (by omega)]
  rw [← closesFrom_false] at hc
  obtain ⟨r, hr⟩ := (splitLoop_closes ops [] []).2 hc
  rw [hr]
  cases ops with
  | nil => simp at h
  | cons o l =>
    have ho : o ≠ .close := by
      rintro rfl
      simp [splitLoop] at hr
    have hs : splitLoop [] (closedUp [o]) l = .ok r := by
      have e : closedUp [o] = [o] := by
        unfold closedUp
        rw [if_neg (by simpa using fun e => ho e.symm)]
      rw [e, ← hr]
      cases o with
      | close => exact absurd rfl ho
      | _ => rfl
    obtain ⟨h1, h2⟩ := splitLoop_cut l [] o [] r ho (by simp) hs
    simp only [Out.bind_ok]
    have : r.2.isEmpty = false := by
      cases hr2 : r.2 with
      | nil => exact absurd hr2 h1
      | cons => rfl
    rw [this]
    simpa using h2

/-- **C119.** What the checks for a number of contours say, and when they panic: a `Close` that closes nothing.  Lists of no
or one operation count as one contour, any other as one for each `MoveTo` and one more if it begins without. -/
theorem C119_count (ops : List PenOp) (n : Nat) :
    (hasNContours ops n = .panic ↔ 2 ≤ ops.length ∧ ¬ ClosesOpened (ops.map PenOp.pathEl)) ∧
    (hasNContours ops n = .ok true ↔ ops.length ≤ 1 ∧ n = 1 ∨ 2 ≤ ops.length ∧ ClosesOpened (ops.map PenOp.pathEl) ∧ contourCount ops = n) ∧
    ∀ e, hasNContours ops n ≠ .err e := by
  by_cases h1 : ops.length ≤ 1
  · have e : hasNContours ops n = .ok (decide (1 = n)) := by
      unfold hasNContours splitPenOperations
      rw [if_pos h1]
      rfl
    rw [e]
    refine ⟨⟨fun h => (by cases h), fun h => by omega⟩, ?_, by simp⟩
    simp only [Out.ok.injEq, decide_eq_true_eq]
    omega
  · by_cases hc : ClosesOpened (ops.map PenOp.pathEl)
    · have e : hasNContours ops n = .ok (decide (contourCount ops = n)) := by
        unfold hasNContours
        rw [C119_split ops (by omega) hc, Out.bind_ok, List.length_map, cutAtMoves_length _ (by rintro rfl; simp at h1)]
      rw [e]
      refine ⟨⟨fun h => (by cases h), fun h => absurd hc h.2⟩, ?_, by simp⟩
      simp only [Out.ok.injEq, decide_eq_true_eq]
      constructor
      · exact fun h => .inr ⟨by omega, hc, h⟩
      · rintro (h | h)
        · omega
        · exact h.2.2
    · have e : hasNContours ops n = .panic := by
        unfold hasNContours splitPenOperations
        rw [if_neg h1]
        rw [← closesFrom_false] at hc
        rw [(splitLoop_closes ops [] []).1 (by simpa [beginsMove] using hc)]
        rfl
      rw [e]
      refine ⟨⟨fun _ => ⟨by omega, hc⟩, fun _ => rfl⟩, ⟨fun h => (by cases h), ?_⟩, by simp⟩
      rintro (h | h)
      · omega
      · exact absurd h.2.1 hc

/-- **C119.** The operations made from a contour are valid as a list. -/
theorem C119_made (c : Contour PD) (ops : List PenOp) (h : intoPenOperations c = .ok ops) : penOpsValid ops = .ok true := by
  obtain ⟨k, hk, -⟩ := C69_one_contour c ops h
  unfold penOpsValid hasNContours
  rw [hk]
  rfl

/-- **C119 is false of the code.** The documentation has a valid list contain one and only one contour.  No operation at all,
and a lone `Close`, are valid; a line that is closed without a `MoveTo` before it cannot be checked.  Splitting a list of one
operation loses the operation. -/
theorem C119_false :
    penOpsValid [] = .ok true ∧ penOpsValid [.close] = .ok true ∧ (∀ p : GlifPoint, penOpsValid [.lineTo p, .close] = .panic) ∧
    ∀ o : PenOp, splitPenOperations [o] = .ok [[]] :=
  ⟨rfl, rfl, fun _ => rfl, fun _ => rfl⟩

/-- **C119, in part.** Of operations that begin with a `MoveTo`, do not end there, and close nothing twice, the valid ones are
those with no other `MoveTo`. -/
theorem C119_partial (m : GlifPoint) (l : List PenOp) (h : l ≠ []) (hc : ClosesOpened ((PenOp.moveTo m :: l).map PenOp.pathEl)) :
    ∃ b, penOpsValid (.moveTo m :: l) = .ok b ∧ (b = true ↔ ∀ q, PenOp.moveTo q ∉ l) := by
  have hl : 2 ≤ (PenOp.moveTo m :: l).length := by
    cases l with
    | nil => exact absurd rfl h
    | cons => simp
  have hcount : contourCount (PenOp.moveTo m :: l) = 1 ↔ ∀ q, PenOp.moveTo q ∉ l := by
    unfold contourCount
    simp only [List.head?_cons, Option.any_some, isMoveOp, if_true, List.filter_cons, List.length_cons, Nat.add_zero, Nat.add_eq_right,
      List.length_eq_zero_iff, List.filter_eq_nil_iff]
    constructor
    · intro h q hq
      exact h _ hq rfl
    · intro h x hx hm
      cases x with
      | moveTo q => exact h q hx
      | _ => cases hm
  unfold penOpsValid
  unfold hasNContours
  rw [C119_split _ hl hc, Out.bind_ok, List.length_map, cutAtMoves_length _ (by simp)]
  exact ⟨_, rfl, decide_eq_true_iff.trans hcount⟩

/-- Two contours, one of them closed. -/
example (m p q r : GlifPoint) : hasNContours [.moveTo m, .lineTo p, .close, .moveTo q, .lineTo r] 2 = .ok true := by
  refine (C119_count _ 2).2.1.2 (.inr ⟨by simp, ?_, rfl⟩)
  rw [← closesFrom_false]
  rfl

end GP
