import Mathlib.Logic.Function.Iterate
import Mathlib.Tactic.ByContra
import Verif.Lemmas.ContourIO
/-! Helper lemmas: rotation of stored contours, and what the reader keeps. -/
open Fl
namespace GP
variable {PD : Type}
open Spec

theorem startEarlier_concat {α : Type} (l : List α) (z : α) : startEarlier (l ++ [z]) = z :: l := by
  unfold startEarlier
  rw [List.getLast?_concat, List.dropLast_concat]

theorem zipWith_append_single {α β γ : Type} (f : α → β → γ) (l : List α) (m : List β) (a : α) (b : β)
    (h : l.length = m.length) : List.zipWith f (l ++ [a]) (m ++ [b]) = List.zipWith f l m ++ [f a b] := by
  rw [List.zipWith_append h]; rfl

theorem keptContour_startEarlier (c : Contour PD) :
    keptContour (startEarlier c) = startEarlier (keptContour c) := by
  rcases List.eq_nil_or_concat c with rfl | ⟨init, z, rfl⟩
  · rfl
  · rw [List.concat_eq_append, startEarlier_concat]
    cases init with
    | nil => rfl
    | cons p i =>
      show List.zipWith kept (z :: p :: i) (p :: i ++ [z]) =
        startEarlier (List.zipWith kept ((p :: i) ++ [z]) ((i ++ [z]) ++ [p]))
      rw [zipWith_append_single _ _ _ _ _ (by simp), startEarlier_concat]
      rfl

theorem stored_eq (c : Contour PD) : keptContour (start c) = stored c := by
  cases c with
  | nil => rfl
  | cons p rest =>
    unfold start stored
    simp only []
    split
    · exact keptContour_startEarlier _
    · rfl

theorem kept_out {p n : Point PD} (h : n.ptype = .curve) : outPos (kept p n) = outPos p := by
  simp [outPos, kept, h]

theorem kept_in {p n : Point PD} (h : p.ptype = .curve) : inPos (kept p n) = inPos p := by
  simp [inPos, kept, h]

theorem kept_kept (p n m : Point PD) : kept (kept p n) (kept n m) = kept p n := by
  unfold kept outPos inPos
  simp only [Point.mk.injEq, true_and, and_true]
  constructor
  · split <;> rfl
  · split <;> rfl

theorem zipWith_kept (l : List (Point PD)) : ∀ (x y m : Point PD),
    List.zipWith kept (List.zipWith kept (x :: l) (l ++ [y])) (List.zipWith kept l (l.tail ++ [y]) ++ [kept y m]) =
    List.zipWith kept (x :: l) (l ++ [y]) := by
  induction l with
  | nil => intro x y m; simp [kept_kept]
  | cons p l ih =>
    intro x y m
    have := ih p y m
    simp only [List.cons_append, List.zipWith_cons_cons, List.tail_cons] at this ⊢
    cases l with
    | nil => simp_all [kept_kept]
    | cons q l =>
      simp only [List.cons_append, List.zipWith_cons_cons, List.tail_cons] at this ⊢
      rw [kept_kept, this]

theorem keptContour_idem (c : Contour PD) : keptContour (keptContour c) = keptContour c := by
  cases c with
  | nil => rfl
  | cons p rest =>
    have : List.zipWith kept (p :: rest) (rest ++ [p]) =
        kept p ((rest ++ [p]).head (by simp)) :: List.zipWith kept rest (rest.tail ++ [p]) := by
      cases rest <;> simp
    show keptContour (List.zipWith kept (p :: rest) (rest ++ [p])) = _
    rw [this]
    show List.zipWith kept (kept p ((rest ++ [p]).head (by simp)) :: List.zipWith kept rest (rest.tail ++ [p]))
      (List.zipWith kept rest (rest.tail ++ [p]) ++ [kept p ((rest ++ [p]).head (by simp))]) = _
    rw [← this]
    exact zipWith_kept rest p p _

theorem keptContour_length (c : Contour PD) : (keptContour c).length = c.length := by
  cases c <;> simp [keptContour]

theorem zipWith_fst {α β γ : Type} (f : α → β → α) (g : α → γ) (h : ∀ a b, g (f a b) = g a) (l : List α) :
    ∀ m : List β, l.length ≤ m.length → (List.zipWith f l m).map g = l.map g := by
  induction l with
  | nil => intro m _; simp
  | cons a l ih =>
    intro m hm
    cases m with
    | nil => simp at hm
    | cons b m => simp [h, ih m (by simpa using hm)]

theorem keptContour_map {γ : Type} (g : Point PD → γ) (h : ∀ a b, g (kept a b) = g a) (c : Contour PD) :
    (keptContour c).map g = c.map g := by
  cases c with
  | nil => rfl
  | cons p rest => exact zipWith_fst kept g h _ _ (by simp)

theorem startEarlier_map {α β : Type} (f : α → β) (l : List α) :
    startEarlier (l.map f) = (startEarlier l).map f := by
  rcases List.eq_nil_or_concat l with rfl | ⟨i, z, rfl⟩
  · rfl
  · rw [List.concat_eq_append, List.map_append, startEarlier_concat]
    show startEarlier (List.map f i ++ [f z]) = _
    rw [startEarlier_concat]; rfl

theorem startEarlier_rotated {α : Type} (l : List α) : Rotated l (startEarlier l) := by
  rcases List.eq_nil_or_concat l with rfl | ⟨i, z, rfl⟩
  · exact ⟨[], [], rfl, rfl⟩
  · rw [List.concat_eq_append, startEarlier_concat]
    exact ⟨i, [z], rfl, rfl⟩

theorem mem_startEarlier {α : Type} {l : List α} {a : α} : a ∈ startEarlier l ↔ a ∈ l := by
  rcases List.eq_nil_or_concat l with rfl | ⟨i, z, rfl⟩
  · rfl
  · rw [List.concat_eq_append, startEarlier_concat]
    simp [or_comm]

theorem startEarlier_length {α : Type} (l : List α) : (startEarlier l).length = l.length := by
  rcases List.eq_nil_or_concat l with rfl | ⟨i, z, rfl⟩
  · rfl
  · rw [List.concat_eq_append, startEarlier_concat]; simp

/-! ## Segments, and iterated rotation -/

theorem pairs_map_kept (rest : Contour PD) : ∀ q p m : Point PD,
    (((List.zipWith kept (q :: p :: rest) (p :: rest ++ [m])).zip
      (List.zipWith kept (p :: rest) (rest ++ [m]))).filter fun x => x.2.ptype == .curve).map segment =
    (((q :: p :: rest).zip (p :: rest)).filter fun x => x.2.ptype == .curve).map segment := by
  induction rest with
  | nil =>
    intro q p m
    by_cases h : p.ptype = .curve
    · simp [h, kept, segment, outPos, inPos]
    · simp [h, kept]
  | cons r rest ih =>
    intro q p m
    have := ih p r m
    simp only [List.cons_append, List.zipWith_cons_cons, List.zip_cons_cons, List.filter_cons] at this ⊢
    by_cases h : p.ptype = .curve
    · have e : (kept p r).ptype = .curve := h
      simp only [h, e, beq_self_eq_true, if_true, List.map_cons]
      refine congrArg₂ _ ?_ this
      simp [segment, kept, outPos, inPos, h]
    · have e : ((kept p r).ptype == .curve) = false := by simpa [kept] using h
      have e' : (p.ptype == PointType.curve) = false := by simpa using h
      simp only [e, e', Bool.false_eq_true, if_false]
      exact this

theorem curveSegments_kept (c : Contour PD) : curveSegments (keptContour c) = curveSegments c := by
  rcases List.eq_nil_or_concat c with rfl | ⟨init, z, rfl⟩
  · rfl
  · rw [List.concat_eq_append]
    cases init with
    | nil =>
      by_cases h : z.ptype = .curve
      · simp [curveSegments, keptContour, cyclicPairs, kept, segment, outPos, inPos, h]
      · simp [curveSegments, keptContour, cyclicPairs, kept, h]
    | cons p i =>
      have key := pairs_map_kept (i ++ [z]) z p p
      unfold curveSegments
      have h1 : cyclicPairs (p :: i ++ [z]) = (z :: p :: (i ++ [z])).zip (p :: (i ++ [z])) := by
        unfold cyclicPairs
        rw [List.getLast?_concat]; rfl
      have h2 : keptContour (p :: i ++ [z]) = List.zipWith kept (p :: i) (i ++ [z]) ++ [kept z p] := by
        show List.zipWith kept ((p :: i) ++ [z]) ((i ++ [z]) ++ [p]) = _
        rw [zipWith_append_single _ _ _ _ _ (by simp)]
      have h3 : cyclicPairs (keptContour (p :: i ++ [z])) =
          (kept z p :: keptContour (p :: i ++ [z])).zip (keptContour (p :: i ++ [z])) := by
        unfold cyclicPairs
        rw [h2, List.getLast?_concat]
      rw [h3, h1]
      exact key

/-- Rotating a contour rotates its curve segments. -/
theorem curveSegments_startEarlier (c : Contour PD) :
    Rotated (curveSegments c) (curveSegments (startEarlier c)) := by
  rcases List.eq_nil_or_concat c with rfl | ⟨init, z, rfl⟩
  · exact ⟨[], [], rfl, rfl⟩
  · rw [List.concat_eq_append, startEarlier_concat]
    have h1 : cyclicPairs (init ++ [z]) = (z :: init ++ [z]).zip (init ++ [z]) := by
      unfold cyclicPairs; rw [List.getLast?_concat]; rfl
    have h2 : ∃ u, cyclicPairs (init ++ [z]) = (z :: init).zip init ++ [(u, z)] ∧
        cyclicPairs (z :: init) = (u, z) :: (z :: init).zip init := by
      rcases List.eq_nil_or_concat init with rfl | ⟨i, u, rfl⟩
      · exact ⟨z, rfl, rfl⟩
      · rw [List.concat_eq_append] at h1 ⊢
        refine ⟨u, ?_, ?_⟩
        · rw [h1]
          have e1 : z :: (i ++ [u]) ++ [z] = (z :: i) ++ [u, z] := by simp
          have e2 : (i ++ [u]) ++ [z] = (i ++ [u]) ++ [z] := rfl
          have e3 : (z :: (i ++ [u])).zip (i ++ [u]) = (z :: i).zip (i ++ [u]) := by
            have := zip_dropLast z (i ++ [u])
            rw [List.dropLast_concat] at this
            exact this.symm
          rw [e3]
          have e4 : z :: (i ++ [u]) ++ [z] = (z :: i) ++ [u, z] := by simp
          rw [e4]
          rw [List.zip_append (l₁ := z :: i) (r₁ := [u, z]) (l₂ := i ++ [u]) (r₂ := [z]) (by simp)]
          rfl
        · unfold cyclicPairs
          have : (z :: (i ++ [u])).getLast? = some u := by
            rw [← List.cons_append]; exact List.getLast?_concat
          rw [this]; rfl
    obtain ⟨u, h3, h4⟩ := h2
    unfold curveSegments
    rw [h3, h4]
    by_cases hz : z.ptype = .curve
    · refine ⟨(((z :: init).zip init).filter fun x => x.2.ptype == .curve).map segment, [segment (u, z)], ?_, ?_⟩
      · rw [List.filter_append]; simp [hz]
      · simp [hz]
    · refine ⟨[], (((z :: init).zip init).filter fun x => x.2.ptype == .curve).map segment, ?_, ?_⟩
      · rw [List.filter_append]; simp [hz]
      · simp [hz]

theorem startEarlier_startedBack {α : Type} (k : Nat) (l : List α) (hk : k < l.length) :
    startEarlier (startedBack k l) = startedBack (k + 1) l := by
  unfold startedBack
  have hlt : l.length - (k + 1) < l.length := by omega
  have e : l.length - k = l.length - (k + 1) + 1 := by omega
  rw [e, List.take_succ_eq_append_getElem hlt, ← List.append_assoc, startEarlier_concat]
  rw [← List.cons_append, ← List.drop_eq_getElem_cons hlt]

theorem startedBack_length {α : Type} (l : List α) : startedBack l.length l = l := by
  simp [startedBack]

theorem startedBack_zero {α : Type} (l : List α) : startedBack 0 l = l := by
  simp [startedBack]

theorem startEarlier_mod {α : Type} (k : Nat) (l : List α) (hl : l ≠ []) :
    startEarlier (startedBack (k % l.length) l) = startedBack ((k + 1) % l.length) l := by
  have hp : 0 < l.length := List.length_pos_iff.2 hl
  have hm := Nat.mod_lt k hp
  rw [startEarlier_startedBack _ _ hm]
  by_cases h : k % l.length + 1 = l.length
  · rw [h, startedBack_length]
    have : (k + 1) % l.length = 0 := by
      rw [Nat.add_mod]
      by_cases h1 : l.length = 1
      · rw [h1]; omega
      · rw [Nat.mod_eq_of_lt (show 1 < l.length by omega), h, Nat.mod_self]
    rw [this, startedBack_zero]
  · have : (k + 1) % l.length = k % l.length + 1 := by
      rw [Nat.add_mod, Nat.mod_eq_of_lt (show 1 < l.length by omega), Nat.mod_eq_of_lt (by omega)]
    rw [this]

theorem startEarlier_pow {α : Type} (k : Nat) (l : List α) (hl : l ≠ []) :
    startEarlier^[k] l = startedBack (k % l.length) l := by
  induction k with
  | zero => simp [startedBack]
  | succ k ih => rw [Function.iterate_succ_apply', ih, startEarlier_mod k l hl]

theorem allCurve_kept {c : Contour PD} (h : AllCurve c) : AllCurve (keptContour c) := by
  intro p hp
  have : p.ptype ∈ (keptContour c).map (·.ptype) := List.mem_map_of_mem hp
  rw [keptContour_map _ (fun a b => rfl)] at this
  obtain ⟨q, hq, e⟩ := List.mem_map.1 this
  rw [← e]; exact h q hq

theorem allCurve_startEarlier {c : Contour PD} (h : AllCurve c) : AllCurve (startEarlier c) :=
  fun p hp => h p (mem_startEarlier.1 hp)

/-- A file contour made by the writer starts with the first on-curve point. -/
theorem contourOfGlif_fileFrom (mid : IOF → IOF → IOF) {h : Point PD} {rest : Contour PD}
    (hh : CubicPt h) : contourOfGlif (PD := PD) mid (fileFrom h rest) = cubicContour (fileFrom h rest) := by
  have : ∃ l, fileFrom h rest = on h :: l := ⟨_, rfl⟩
  obtain ⟨l, hl⟩ := this
  rw [hl]
  unfold contourOfGlif
  rcases hh with e | e | e <;> simp only [on_ptype, e]

/-! ## The reader -/

def isDrawn (t : PointType) : Bool := t == .move || t == .line || t == .curve

theorem modLast_map {α β : Type} (f : α → α) (g : α → β) (h : ∀ a, g (f a) = g a) (l : List α) :
    (modLast f l).map g = l.map g := by
  induction l with
  | nil => rfl
  | cons a l ih =>
    cases l with
    | nil => simp [modLast, h]
    | cons b l => simp only [modLast, List.map_cons] at ih ⊢; rw [ih]

theorem cubicStep_ne_err (st : Contour PD × List GlifPoint) (gp : GlifPoint) (e : GErr) :
    cubicStep st gp ≠ .err e := by
  unfold cubicStep; cases gp.ptype <;> simp

theorem foldR_cubic (gc : List GlifPoint) : ∀ (st : Contour PD × List GlifPoint),
    (∃ p ∈ gc, p.ptype = .qcurve) ∧ foldR (cubicStep (PD := PD)) st gc = .panic ∨
    (∀ p ∈ gc, p.ptype ≠ .qcurve) ∧ ∃ st', foldR (cubicStep (PD := PD)) st gc = .ok st' ∧
      st'.1.map (·.ptype) = st.1.map (·.ptype) ++ (gc.map (·.ptype)).filter isDrawn := by
  induction gc with
  | nil => intro st; exact Or.inr ⟨by simp, st, rfl, by simp⟩
  | cons gp gc ih =>
    intro st
    by_cases hq : gp.ptype = .qcurve
    · left
      refine ⟨⟨gp, List.mem_cons_self, hq⟩, ?_⟩
      simp [foldR, cubicStep, hq]
    · have : ∃ st1, cubicStep (PD := PD) st gp = .ok st1 ∧
          st1.1.map (·.ptype) = st.1.map (·.ptype) ++ [gp.ptype].filter isDrawn := by
        unfold cubicStep
        cases hp : gp.ptype
        case qcurve => exact absurd hp hq
        case undefined => exact ⟨_, rfl, by simp [isDrawn]⟩
        case qclose => exact ⟨_, rfl, by simp [isDrawn]⟩
        case offcurve => exact ⟨_, rfl, by simp [isDrawn]⟩
        all_goals
          refine ⟨_, rfl, ?_⟩
          simp only [List.map_append, List.map_cons, List.map_nil]
          rw [modLast_map]
          · simp [isDrawn]
          · intro a; rfl
      obtain ⟨st1, h1, h2⟩ := this
      rw [show foldR (cubicStep (PD := PD)) st (gp :: gc) = foldR cubicStep st1 gc by
        simp [foldR, h1]]
      rcases ih st1 with ⟨⟨p, hp, hpq⟩, hpan⟩ | ⟨hall, st', h3, h4⟩
      · exact Or.inl ⟨⟨p, List.mem_cons_of_mem _ hp, hpq⟩, hpan⟩
      · refine Or.inr ⟨?_, st', h3, ?_⟩
        · intro p hp
          rcases List.mem_cons.1 hp with rfl | hp
          · exact hq
          · exact hall p hp
        · rw [h4, h2, List.append_assoc, ← List.filter_append]; rfl

/-- Types of the points the cubic reader returns. -/
theorem cubicContour_types (gc : List GlifPoint) :
    (∃ p ∈ gc, p.ptype = .qcurve) ∧ cubicContour (PD := PD) gc = .panic ∨
    (∀ p ∈ gc, p.ptype ≠ .qcurve) ∧ ∃ c, cubicContour (PD := PD) gc = .ok c ∧
      c.map (·.ptype) =
        (if (gc.map (·.ptype)).filter isDrawn = [.move] then [] else (gc.map (·.ptype)).filter isDrawn) := by
  rcases foldR_cubic (PD := PD) gc ([], []) with ⟨h1, h2⟩ | ⟨h1, ⟨c, q⟩, h2, h3⟩
  · left
    refine ⟨h1, ?_⟩
    unfold cubicContour
    rw [h2]; rfl
  · right
    refine ⟨h1, ?_⟩
    unfold cubicContour
    rw [h2]
    simp only [Out.bind_ok]
    simp only [List.map_nil, List.nil_append] at h3
    generalize hm : modLast (fun p : Point PD => { p with a := Handle.ofGlifPoint q.head? }) c = m
    have hmt : m.map (·.ptype) = (gc.map (·.ptype)).filter isDrawn := by
      rw [← hm, modLast_map, h3]; intro a; rfl
    rw [← hmt]
    match m with
    | [] => exact ⟨[], rfl, by simp⟩
    | [p] =>
      by_cases e : p.ptype = .move
      · exact ⟨[], by simp [e], by simp [e]⟩
      · simp only [ne_eq, e, not_false_eq_true, if_true, if_false]
        exact ⟨_, rfl, by simp [e]⟩
    | p :: r :: l =>
      by_cases e : p.ptype = .move
      · simp only [ne_eq, e, not_true_eq_false, if_false]
        exact ⟨_, rfl, by simp⟩
      · simp only [ne_eq, e, not_false_eq_true, if_true]
        exact ⟨_, rfl, by simp⟩

end GP
