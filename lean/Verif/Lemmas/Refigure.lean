import Verif.Spec.Refigure
import Verif.Model.Outline
import Verif.Lemmas.Index
import Verif.Lemmas.Reverse
/-! Helper lemmas on refiguring. -/
open Fl
namespace GP
variable {PD : Type}
open Spec

theorem knock_settle (h : Handle) (p : Point PD) : h.knock p.x p.y = settle h p := by
  unfold Handle.knock settle
  cases h with
  | colocated => simp
  | «at» x y =>
    by_cases hx : x.feq p.x = true ∧ y.feq p.y = true
    · have : OnPoint (.at x y) p := ⟨x, y, rfl, hx.1, hx.2⟩
      simp [this, hx]
    · have : ¬ OnPoint (.at x y) p := fun ⟨_, _, e, e1, e2⟩ => by cases e; exact hx ⟨e1, e2⟩
      simp only [this, if_false]
      rw [if_neg]
      simpa using hx

/-- Type at an index, given the handle in front. -/
theorem pointTypeForIdx_eq {c : Contour PD} {i : Nat} (h2 : 2 ≤ c.length) (hi : i < c.length) :
    pointTypeForIdx c i = if isOpen c ∧ i = 0 then .move
      else typeByHandles (c[if i = 0 then c.length - 1 else i - 1]'(by split <;> omega)).a c[i].b := by
  have hpn := contourPrevNext_ok h2 hi
  have hp : c[i]? = some c[i] := List.getElem?_eq_getElem hi
  have hn : ∃ hs, handlesAt c (if isOpen c ∧ i = c.length - 1 then none else some (if i = c.length - 1 then 0 else i + 1)) = .ok hs :=
    handlesAt_ok (contourPrevNext_lt hpn).2
  obtain ⟨⟨na, nb⟩, hn⟩ := hn
  unfold pointTypeForIdx contourPrevNextHandles
  rw [hpn, hp]
  simp only [Out.bind_ok]
  by_cases h0 : isOpen c ∧ i = 0
  · rw [if_pos h0, if_pos h0, hn]
    simp only [handlesAt, Out.bind_ok]
    simp [h0.1, h0.2]
  · rw [if_neg h0, if_neg h0]
    have hlt : (if i = 0 then c.length - 1 else i - 1) < c.length := by split <;> omega
    rw [handlesAt_some hlt, hn]
    simp only [Out.bind_ok]
    have hc : (!isOpen c || decide (i ≠ 0)) = true := by
      by_cases ho : isOpen c
      · simp [ho]; intro e; exact h0 ⟨ho, e⟩
      · simp [ho]
    rw [if_pos hc]
    generalize (c[if i = 0 then c.length - 1 else i - 1]).a = x
    generalize c[i].b = y
    cases x <;> cases y <;> simp [typeByHandles]

/-- Outgoing handle at an index. -/
def aAt (c : Contour PD) (i : Nat) : Handle :=
  match c[i]? with
  | some p => p.a
  | none => .colocated

/-- The type refiguring computes for index `i` with point `p`. -/
def newType (c : Contour PD) (i : Nat) (p : Point PD) : PointType :=
  if c.length = 1 then .offcurve
  else if isOpen c ∧ i = 0 then .move
  else typeByHandles (if i = 0 then aAt c (c.length - 1) else
    match c[i - 1]? with
    | some q => (settled q).a
    | none => .colocated) (settled p).b

def newPoint (c : Contour PD) (i : Nat) (p : Point PD) : Point PD :=
  { settled p with ptype := newType c i p }

/-- State of the loop before index `k`. -/
def loopState (c : Contour PD) (k : Nat) : Contour PD :=
  c.mapIdx fun j p => if j < k then newPoint c j p else p

theorem isOpen_congr {c d : Contour PD} (hl : c.length = d.length)
    (hp : ∀ p q, c[0]? = some p → d[0]? = some q → (p.ptype = .move ↔ q.ptype = .move)) : isOpen c = isOpen d := by
  cases c with
  | nil => cases d with
    | nil => rfl
    | cons _ _ => cases hl
  | cons p c =>
    cases d with
    | nil => cases hl
    | cons q d =>
      have := hp p q rfl rfl
      cases c with
      | nil => cases d with
        | nil => rfl
        | cons _ _ => simp at hl
      | cons p' c =>
        cases d with
        | nil => simp at hl
        | cons q' d =>
          show (p.ptype == .move) = (q.ptype == .move)
          rw [Bool.eq_iff_iff, beq_iff_eq, beq_iff_eq]
          exact this

theorem settled_ptype (p : Point PD) : (settled p).ptype = p.ptype := rfl

theorem typeByHandles_ne_move (a b : Handle) : typeByHandles a b ≠ .move := by
  unfold typeByHandles; split <;> decide

theorem isOpen_two {c : Contour PD} (h2 : 2 ≤ c.length) {p : Point PD} (hp : c[0]? = some p) :
    isOpen c = true ↔ p.ptype = .move := by
  match c, h2 with
  | q :: _ :: _, _ => simp at hp; subst hp; simp [isOpen]

theorem newPoint_zero_move {c : Contour PD} (h2 : 2 ≤ c.length) {p : Point PD} (hp : c[0]? = some p) :
    (newPoint c 0 p).ptype = .move ↔ p.ptype = .move := by
  rw [← isOpen_two h2 hp]
  show newType c 0 p = .move ↔ _
  unfold newType
  rw [if_neg (by omega)]
  by_cases h : isOpen c = true
  · simp [h]
  · simp only [h, false_and, if_false, iff_false, Bool.false_eq_true]
    exact typeByHandles_ne_move _ _

theorem loop_step (c : Contour PD) (k : Nat) (hk : k < c.length) :
    refigureAt (loopState c k) k = loopState c (k + 1) := by
  unfold refigureAt
  have hmod : (loopState c k).modify k (fun p : Point PD => { p with a := p.a.knock p.x p.y, b := p.b.knock p.x p.y }) =
      c.mapIdx fun j p => if j < k then newPoint c j p else if j = k then settled p else p := by
    apply List.ext_getElem
    · simp [loopState]
    · intro j h1 h2
      rw [List.getElem_modify]
      simp only [loopState, List.getElem_mapIdx]
      by_cases hj : k = j
      · subst hj
        simp [knock_settle, settled]
      · have hj' : ¬ j = k := fun e => hj e.symm
        simp [hj, hj']
  have ht : pointTypeForIdx (c.mapIdx fun j p => if j < k then newPoint c j p else if j = k then settled p else p) k =
      newType c k c[k] := by
    generalize hd : (c.mapIdx fun j p => if j < k then newPoint c j p else if j = k then settled p else p) = d
    have hlen : d.length = c.length := by rw [← hd]; simp
    have hget : ∀ j (hj : j < c.length), d[j]? = some (if j < k then newPoint c j c[j] else if j = k then settled c[j] else c[j]) := by
      intro j hj
      rw [← hd, List.getElem?_mapIdx, List.getElem?_eq_getElem hj]; rfl
    unfold newType
    by_cases h1 : c.length = 1
    · rw [if_pos h1]
      unfold pointTypeForIdx contourPrevNextHandles
      rw [contourPrevNext_err (by omega)]
      simp only [Out.bind_err]
      cases d[k]? <;> rfl
    · rw [if_neg h1]
      have h2 : 2 ≤ c.length := by omega
      have hopen : isOpen d = isOpen c := by
        apply isOpen_congr hlen
        intro p q hp hq
        rw [hget 0 (by omega)] at hp
        have hq0 : q = c[0] := by rw [List.getElem?_eq_getElem (by omega)] at hq; exact (Option.some.inj hq).symm
        injection hp with hp
        subst hp hq0
        by_cases h0 : 0 < k
        · rw [if_pos h0]
          exact newPoint_zero_move h2 (List.getElem?_eq_getElem _)
        · rw [if_neg h0]
          split
          · rw [settled_ptype]
          · rfl
      rw [pointTypeForIdx_eq (by omega) (by omega), hopen]
      by_cases ho : isOpen c ∧ k = 0
      · rw [if_pos ho, if_pos ho]
      · rw [if_neg ho, if_neg ho]
        have hb : ∀ (h : k < d.length), d[k] = settled c[k] := by
          intro h
          have := hget k hk
          rw [List.getElem?_eq_getElem h] at this
          injection this with this
          rw [this]; simp
        rw [hb]
        congr 1
        by_cases h0 : k = 0
        · subst h0
          simp only [if_true]
          have hl : c.length - 1 < c.length := by omega
          have := hget (c.length - 1) hl
          have hd2 : d[d.length - 1]? = d[c.length - 1]? := by rw [hlen]
          rw [← hd2, List.getElem?_eq_getElem (show d.length - 1 < d.length by omega)] at this
          injection this with this
          rw [this]
          have hne : ¬ c.length - 1 = 0 := by omega
          simp only [Nat.not_lt_zero, if_false, hne]
          unfold aAt
          rw [List.getElem?_eq_getElem hl]
        · simp only [h0, if_false]
          have hl : k - 1 < c.length := by omega
          have := hget (k - 1) hl
          rw [List.getElem?_eq_getElem (by omega)] at this
          injection this with this
          rw [this, List.getElem?_eq_getElem hl]
          have hlt : k - 1 < k := by omega
          simp only [hlt, if_true]
          rfl
  simp only [hmod, ht]
  apply List.ext_getElem
  · simp [loopState]
  · intro j h1 h2
    rw [List.getElem_modify]
    simp only [loopState, List.getElem_mapIdx]
    by_cases hj : k = j
    · subst hj
      simp [newPoint]
    · have : (j < k + 1) ↔ j < k := by omega
      have hj' : ¬ j = k := fun e => hj e.symm
      simp [hj, hj', this]

theorem loop_run (c : Contour PD) (k : Nat) (hk : k ≤ c.length) :
    (List.range k).foldl refigureAt c = loopState c k := by
  induction k with
  | zero =>
    apply List.ext_getElem
    · simp [loopState]
    · intro j _ _; simp [loopState]
  | succ k ih =>
    rw [List.range_succ, List.foldl_append, ih (by omega), List.foldl_cons, List.foldl_nil,
      loop_step c k (by omega)]

/-- The loop computes the refigured contour; the first point of a closed contour is typed with the
handle the last point had *before* the loop. -/
theorem refigure_eq (c : Contour PD) : refigure c = refigured (aAt c (c.length - 1)) c := by
  unfold refigure
  rw [loop_run c _ (Nat.le_refl _)]
  match c with
  | [] => rfl
  | [p] => simp [loopState, refigured, newPoint, newType]
  | p :: q :: rest =>
    generalize hc : p :: q :: rest = c
    have h2 : 2 ≤ c.length := by rw [← hc]; simp
    have hne : ¬ c.length = 1 := by omega
    have h0 : c[0]? = some p := by rw [← hc]; rfl
    have hr : refigured (aAt c (c.length - 1)) c =
        (if p.ptype = .move then { settled p with ptype := .move } else retyped (aAt c (c.length - 1)) p) ::
          List.zipWith (fun o r => retyped (settled o).a r) c c.tail := by
      rw [← hc]; rfl
    rw [hr]
    apply List.ext_getElem
    · simp [loopState]; omega
    · intro j h1 h3
      have hj : j < c.length := by simpa [loopState] using h1
      simp only [loopState, List.getElem_mapIdx, hj, if_true]
      cases j with
      | zero =>
        have e0 : c[0] = p := by rw [List.getElem?_eq_getElem hj] at h0; exact Option.some.inj h0
        rw [e0, List.getElem_cons_zero]
        have hop := isOpen_two h2 h0
        unfold newPoint newType
        rw [if_neg hne]
        by_cases hm : p.ptype = .move
        · simp [hop.2 hm, hm]
        · have : ¬ isOpen c = true := fun e => hm (hop.1 e)
          simp only [this, false_and, if_false, hm, if_true, Bool.false_eq_true]
          rfl
      | succ j =>
        rw [List.getElem_cons_succ, List.getElem_zipWith, List.getElem_tail]
        unfold newPoint newType
        rw [if_neg hne]
        have hj' : j < c.length := by omega
        simp only [Nat.add_eq_zero_iff, Nat.succ_ne_self, and_false, if_false, Nat.add_sub_cancel,
          List.getElem?_eq_getElem hj']
        rfl

theorem closing_eq (c : Contour PD) : aAt c (c.length - 1) = closing c := by
  unfold aAt closing
  rw [List.getLast?_eq_getElem?]
  cases c[c.length - 1]? <;> rfl

theorem onPoint_settled (h : Handle) (p : Point PD) : OnPoint h (settled p) ↔ OnPoint h p := Iff.rfl

theorem not_onPoint_settle (h : Handle) (p : Point PD) : ¬ OnPoint (settle h p) p := by
  unfold settle
  split
  · rintro ⟨_, _, e, _⟩; cases e
  · assumption

theorem settle_settle (h : Handle) (p : Point PD) : settle (settle h p) p = settle h p := by
  rw [settle, if_neg (not_onPoint_settle h p)]

theorem settled_settled (p : Point PD) : settled (settled p) = settled p := by
  show ({ settled p with a := settle (settle p.a p) p, b := settle (settle p.b p) p } : Point PD) = _
  rw [settle_settle, settle_settle]
  rfl

theorem refigured_forall {cl : Handle} {c : Contour PD} {P : Point PD → Prop}
    (h : ∀ p ∈ c, ∀ t, P { settled p with ptype := t }) : ∀ p ∈ refigured cl c, P p := by
  match c with
  | [] => simp [refigured]
  | [p] =>
    intro q hq
    simp only [refigured, List.mem_singleton] at hq
    subst hq
    exact h p List.mem_cons_self _
  | p :: q :: rest =>
    intro r hr
    rcases List.mem_cons.1 hr with e | hr
    · subst e
      split
      · exact h p List.mem_cons_self _
      · exact h p List.mem_cons_self _
    · obtain ⟨i, hi, e⟩ := List.getElem_of_mem hr
      rw [List.getElem_zipWith] at e
      subst e
      exact h _ (List.mem_cons_of_mem _ (List.getElem_mem _)) _

theorem zipWith_snd {α β γ : Type} (f : α → β → β) (g : β → γ) (h : ∀ a b, g (f a b) = g b) (m : List β) :
    ∀ l : List α, m.length ≤ l.length → (List.zipWith f l m).map g = m.map g := by
  induction m with
  | nil => intro l _; simp
  | cons b m ih =>
    intro l hl
    cases l with
    | nil => simp at hl
    | cons a l => simp [h, ih l (by simpa using hl)]

theorem refigured_map {γ : Type} (g : Point PD → γ) (h : ∀ p t, g { settled p with ptype := t } = g (settled p))
    (cl : Handle) (c : Contour PD) : (refigured cl c).map g = c.map (g ∘ settled) := by
  match c with
  | [] => rfl
  | [p] => simp [refigured, h]
  | p :: q :: rest =>
    show g _ :: _ = g (settled p) :: _
    congr 1
    · split <;> exact h _ _
    · have e : (List.zipWith (fun o r => retyped (settled o).a r) (p :: q :: rest) (q :: rest)) =
          (List.zipWith (fun o r => retyped (settled o).a r) (p :: q :: rest) (q :: rest)) := rfl
      have : ∀ (l m : List (Point PD)), m.length ≤ l.length →
          (List.zipWith (fun o r => retyped (settled o).a r) l m).map g = m.map (g ∘ settled) := by
        intro l m
        induction m generalizing l with
        | nil => intro _; simp
        | cons b m ih =>
          intro hl
          cases l with
          | nil => simp at hl
          | cons a l =>
            rw [List.zipWith_cons_cons, List.map_cons, List.map_cons, ih l (by simpa using hl)]
            congr 1
            exact h _ _
      exact this _ _ (by simp)

theorem closing_refigured (cl : Handle) (c : Contour PD) :
    closing (refigured cl c) = match c.getLast? with
      | some z => (settled z).a
      | none => .colocated := by
  have h := refigured_map (fun p : Point PD => p.a) (fun p t => rfl) cl c
  have h' := congrArg List.getLast? h
  rw [List.getLast?_map, List.getLast?_map] at h'
  unfold closing
  cases e1 : (refigured cl c).getLast? with
  | none =>
    cases e2 : c.getLast? with
    | none => rfl
    | some z => rw [e1, e2] at h'; cases h'
  | some y =>
    cases e2 : c.getLast? with
    | none => rw [e1, e2] at h'; cases h'
    | some z => rw [e1, e2] at h'; exact Option.some.inj h'

theorem retyped_again (a : Handle) (p : Point PD) (t : PointType) :
    retyped a { settled p with ptype := t } = retyped a p := by
  have : settled { settled p with ptype := t } = { settled p with ptype := t } := by
    show ({ settled p with ptype := t, a := settle (settle p.a p) p, b := settle (settle p.b p) p } : Point PD) = _
    rw [settle_settle, settle_settle]
    rfl
  unfold retyped
  rw [this]

theorem settled_again (p : Point PD) (t : PointType) : settled { settled p with ptype := t } = { settled p with ptype := t } := by
  show ({ settled p with ptype := t, a := settle (settle p.a p) p, b := settle (settle p.b p) p } : Point PD) = _
  rw [settle_settle, settle_settle]
  rfl

theorem refigured_refigured (a b : Handle) (c : Contour PD) : refigured b (refigured a c) = refigured b c := by
  match c with
  | [] => rfl
  | [p] => simp only [refigured]; rw [settled_again]
  | p :: q :: rest =>
    have key : ∀ (l : List (Point PD)) (o o' : Point PD), (settled o').a = (settled o).a →
        List.zipWith (fun o r => retyped (settled o).a r)
          (o' :: List.zipWith (fun o r => retyped (settled o).a r) (o :: l) l)
          (List.zipWith (fun o r => retyped (settled o).a r) (o :: l) l) =
        List.zipWith (fun o r => retyped (settled o).a r) (o :: l) l := by
      intro l
      induction l with
      | nil => intro _ _ _; rfl
      | cons r l ih =>
        intro o o' ho
        rw [List.zipWith_cons_cons, List.zipWith_cons_cons]
        congr 1
        · rw [ho]; exact retyped_again _ _ _
        · apply ih
          show (settled { settled r with ptype := _ }).a = _
          rw [settled_again]
    rw [refigured]
    have hz : ∃ y ys, List.zipWith (fun o r : Point PD => retyped (settled o).a r) (p :: q :: rest) (q :: rest) = y :: ys :=
      ⟨_, _, rfl⟩
    obtain ⟨y, ys, hz⟩ := hz
    rw [hz, refigured, ← hz, refigured]
    congr 1
    · by_cases hm : p.ptype = .move
      · rw [if_pos hm, if_pos hm, if_pos rfl, settled_again]
      · rw [if_neg hm, if_neg hm, if_neg (by exact typeByHandles_ne_move _ _)]
        exact retyped_again _ _ _
    · apply key
      split
      · rw [settled_again]
      · show (settled { settled p with ptype := _ }).a = _
        rw [settled_again]

end GP
