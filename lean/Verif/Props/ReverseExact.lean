import Verif.Props.Reverse
/-!
# C29: exactly which contours draw the same segments backwards when reversed
-/
open Fl
namespace GP
variable {PD : Type}
open Spec

theorem map_eq_map_iff {α β : Type} (f g : α → β) (l : List α) : l.map f = l.map g ↔ ∀ x ∈ l, f x = g x :=
  List.map_inj_left

/-- A segment and the same two points run through backwards, the type being that of the other end. -/
theorem drawn_back_iff (a b : Point PD) (t : PointType) :
    drawn (swapped b, { swapped a with ptype := t }) = Drawn.back (drawn (a, b)) ↔ (b.ptype = .curve ↔ t = .curve) := by
  unfold drawn
  by_cases h1 : t = .curve <;> by_cases h2 : b.ptype = .curve
  · simp only [h1, h2, if_true, iff_true]
    rfl
  · simp [h1, h2, Drawn.back]
  · simp [h1, h2, Drawn.back]
  · simp only [h1, h2, if_false, iff_true]
    rfl

theorem all_same_chain (P : Point PD → Prop) (e : Point PD) : ∀ (l : List (Point PD)) (p : Point PD),
    (∀ x ∈ (p :: l).zip (l ++ [e]), (P x.2 ↔ P x.1)) ↔ ∀ q ∈ p :: l ++ [e], (P q ↔ P p) := by
  intro l
  induction l with
  | nil => intro p; simp
  | cons a l ih =>
    intro p
    have := ih a
    simp only [List.cons_append, List.zip_cons_cons, List.forall_mem_cons] at this ⊢
    rw [this]
    constructor
    · rintro ⟨h1, h2, h3⟩
      exact ⟨trivial, h1, fun q hq => (h3 q hq).trans h1⟩
    · rintro ⟨_, h1, h3⟩
      exact ⟨h1, trivial, fun q hq => (h3 q hq).trans h1.symm⟩

/-- **C29** for closed contours, exactly: the reversal draws the same segments backwards if and only if
all points are curve points, or none is. -/
theorem C29_exact_closed (p : Point PD) (rest : Contour PD) (h : p.ptype ≠ .move) (c' : Contour PD)
    (hr : toReversed (p :: rest) = .ok c') :
    (closedPairs c').map drawn = ((closedPairs (p :: rest)).map drawn).reverse.map Drawn.back ↔
      ((∀ q ∈ p :: rest, q.ptype = .curve) ∨ ∀ q ∈ p :: rest, q.ptype ≠ .curve) := by
  rw [C27_closed p rest h] at hr
  cases hr
  have hpairs : closedPairs (swapped p :: rest.reverse.map swapped) =
      ((closedPairs (p :: rest)).reverse).map fun x => (swapped x.2, swapped x.1) := by
    unfold closedPairs
    rw [map_zip_reverse _ _ (by simp)]
    simp only [List.tail_cons, List.take_succ_cons, List.take_zero, List.reverse_cons, List.reverse_append,
      List.reverse_nil, List.nil_append, List.cons_append]
    rw [show swapped p :: rest.reverse.map swapped = (p :: rest.reverse).map swapped from rfl,
      show rest.reverse.map swapped ++ [swapped p] = (rest.reverse ++ [p]).map swapped by simp]
    rw [List.zip_map, ← List.zip_swap (p :: rest.reverse), List.map_map]
    rfl
  rw [hpairs, ← List.map_reverse, List.map_map, List.map_map, map_eq_map_iff]
  have key : ∀ x : Point PD × Point PD, (drawn ∘ fun x : Point PD × Point PD => (swapped x.2, swapped x.1)) x = (Drawn.back ∘ drawn) x ↔
      (x.2.ptype = .curve ↔ x.1.ptype = .curve) := fun x => drawn_back_iff x.1 x.2 x.1.ptype
  simp only [List.mem_reverse, key]
  have hc := all_same_chain (fun q : Point PD => q.ptype = .curve) p rest p
  show (∀ x ∈ (p :: rest).zip (rest ++ [p]), _) ↔ _
  rw [hc]
  constructor
  · intro hq
    by_cases hp : p.ptype = .curve
    · exact .inl fun q hm => (hq q (by simp only [List.cons_append, List.mem_cons, List.mem_append] at hm ⊢; tauto)).2 hp
    · exact .inr fun q hm he => hp ((hq q (by simp only [List.cons_append, List.mem_cons, List.mem_append] at hm ⊢; tauto)).1 he)
  · intro ho q hm
    have hm' : q ∈ p :: rest := by
      simp only [List.cons_append, List.mem_cons, List.mem_append, List.not_mem_nil, or_false] at hm ⊢
      tauto
    rcases ho with ho | ho
    · simp [ho q hm', ho p (List.mem_cons_self ..)]
    · simp [ho q hm', ho p (List.mem_cons_self ..)]

theorem open_back_iff (p : Point PD) (t : PointType) : ∀ (l : List (Point PD)) (z : Point PD),
    (((z :: l).map swapped).zip (l.map swapped ++ [({ swapped p with ptype := t } : Point PD)])).map drawn =
        ((openPairs (p :: (z :: l).reverse)).map drawn).reverse.map Drawn.back ↔
      ∀ q ∈ z :: l, (q.ptype = .curve ↔ t = .curve) := by
  have zip_snoc : ∀ (l : List (Point PD)) (p z : Point PD), openPairs (p :: l ++ [z]) = openPairs (p :: l) ++ [((p :: l).getLast (by simp), z)] := by
    intro l
    induction l with
    | nil => intro p z; rfl
    | cons a l ih =>
      intro p z
      have := ih a z
      unfold openPairs at this ⊢
      simp only [List.cons_append, List.tail_cons, List.zip_cons_cons] at this ⊢
      rw [this]
      rfl
  intro l
  induction l with
  | nil =>
    intro z
    have := drawn_back_iff p z t
    simpa [openPairs] using this
  | cons y l ih =>
    intro z
    have h1 := ih y
    have h2 := drawn_back_iff y z y.ptype
    have hs : openPairs (p :: (z :: y :: l).reverse) = openPairs (p :: (y :: l).reverse) ++ [(y, z)] := by
      rw [show p :: (z :: y :: l).reverse = p :: (y :: l).reverse ++ [z] by simp, zip_snoc]
      congr 3
      simp
    rw [hs, List.map_append, List.reverse_append]
    simp only [List.map_cons, List.cons_append, List.zip_cons_cons, List.map_nil, List.reverse_singleton,
      List.cons.injEq, List.nil_append] at h1 ⊢
    rw [h1]
    rw [show ({ swapped y with ptype := y.ptype } : Point PD) = swapped y from rfl] at h2
    rw [h2]
    simp only [List.forall_mem_cons]
    constructor
    · rintro ⟨h3, h4, h5⟩
      exact ⟨h3.trans h4, h4, h5⟩
    · rintro ⟨h3, h4, h5⟩
      exact ⟨h3.trans h4.symm, h4, h5⟩

/-- **C29** for open contours of at least two points, exactly: the reversal draws the same segments
backwards if and only if the points after the first are curve points when the first segment has a handle
(on either side), and no curve points when it has none. -/
theorem C29_exact_open (p z : Point PD) (mid : Contour PD) (h : p.ptype = .move) (c' : Contour PD)
    (hr : toReversed (p :: mid ++ [z]) = .ok c') :
    (openPairs c').map drawn = ((openPairs (p :: mid ++ [z])).map drawn).reverse.map Drawn.back ↔
      ∀ q ∈ mid ++ [z], (q.ptype = .curve ↔ ¬ (p.a = .colocated ∧ ((mid ++ [z]).head (by simp)).b = .colocated)) := by
  rw [toReversed_open h] at hr
  cases hr
  have ht : typeByHandles ((mid ++ [z]).head (by simp)).b p.a = .curve ↔
      ¬ (p.a = .colocated ∧ ((mid ++ [z]).head (by simp)).b = .colocated) := by
    unfold typeByHandles
    split <;> rename_i hh
    · simp [hh.1, hh.2]
    · simp only [true_iff]; exact fun e => hh ⟨e.2, e.1⟩
  simp only [← ht]
  generalize typeByHandles ((mid ++ [z]).head (by simp)).b p.a = t
  have := open_back_iff p t mid.reverse z
  rw [show p :: (z :: mid.reverse).reverse = p :: mid ++ [z] by simp] at this
  have hm : ∀ q, q ∈ z :: mid.reverse ↔ q ∈ mid ++ [z] := by
    intro q; simp only [List.mem_cons, List.mem_reverse, List.mem_append, List.not_mem_nil, or_false]; tauto
  simp only [hm] at this
  rw [← this]
  have hz : ∀ (M : List (Point PD)) (e : Point PD), (openPairs (({ swapped z with ptype := PointType.move } : Point PD) :: M ++ [e])).map drawn =
      ((swapped z :: M).zip (M ++ [e])).map drawn := by
    intro M e
    cases M with
    | nil => rfl
    | cons m M =>
      have zd := zip_dropLast m (M ++ [e])
      rw [List.dropLast_concat] at zd
      unfold openPairs
      simp only [List.cons_append, List.tail_cons, List.zip_cons_cons, List.map_cons] at zd ⊢
      rw [zd]
      rfl
  rw [hz]
  rfl

/-- An open contour of curves with handles, and one of lines without: both meet the condition; and one
that does not. -/
example : ∃ p q r : Point Unit, p.ptype = .move ∧ q.ptype = .curve ∧ r.ptype = .line ∧ ¬ (p.a = .colocated ∧ q.b = .colocated) ∧
    p.a = .colocated ∧ r.b = .colocated :=
  ⟨Sample.pt .move 0 0, Sample.cv 10 0 10 0 5 5, Sample.pt .line 1 1, rfl, rfl, rfl, fun h => (nomatch h.2), rfl, rfl⟩

/-- A closed contour mixing lines and curves does not meet the condition. -/
example : ∃ p q : Point Unit, p.ptype ≠ .move ∧ ¬ ((∀ x ∈ [p, q], x.ptype = .curve) ∨ ∀ x ∈ [p, q], x.ptype ≠ .curve) :=
  ⟨Sample.pt .line 0 0, Sample.cv 10 0 10 0 5 5, by decide, by simp [Sample.pt, Sample.cv]⟩

end GP
