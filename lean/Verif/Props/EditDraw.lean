import Verif.Spec.EditDraw
import Verif.Props.SkiaStrokes
import Verif.Props.MfekEdit
import Verif.Props.DocumentDraw
import Verif.Props.Sample
import Mathlib.Data.List.InsertIdx
/-!
# C129: what is drawn after an edit in the editor
-/
open Fl
namespace GP
variable {PD : Type}
open Spec

theorem between_split (a : List (Point PD)) (x : Point PD) (b : List (Point PD)) :
    piecesBetween (a ++ x :: b) = piecesBetween (a ++ [x]) ++ piecesBetween (x :: b) := by
  unfold piecesBetween
  rw [← List.map_append]
  congr 1
  induction a with
  | nil => simp [openPairs]
  | cons p a ih =>
    cases a with
    | nil => simp [openPairs]
    | cons q a =>
      simp only [openPairs, List.cons_append, List.tail_cons, List.zip_cons_cons, List.cons.injEq, true_and] at ih ⊢
      exact ih

theorem between_cons (x y : Point PD) (b : List (Point PD)) : piecesBetween (x :: y :: b) = pieceTo x y :: piecesBetween (y :: b) := rfl

theorem zip_extra {α β : Type} (a b : List α) (c : List β) (h : a.length = c.length) : (a ++ b).zip c = a.zip c := by
  have := List.zip_append (l₁ := a) (r₁ := b) (l₂ := c) (r₂ := []) h
  simpa using this

theorem around_eq (c : Contour PD) : (closedPairs c).map wantedStroke = piecesBetween (c ++ c.take 1) := by
  cases c with
  | nil => rfl
  | cons p l =>
    unfold piecesBetween
    congr 1
    simp only [closedPairs, openPairs, List.take_succ_cons, List.take_zero, List.cons_append, List.tail_cons]
    rw [← List.cons_append, zip_extra _ _ _ (by simp)]

theorem openRun_draws (conic : ConicToQuads) {c : Contour PD} (h : OpenRun c) : DrawsJust conic c False (piecesBetween c) := by
  obtain ⟨m, l, rfl, hm, hl⟩ := h
  obtain ⟨k, h1, h2, h3⟩ := C110_draws conic m l (Or.inl hm) hl
  have ho : openContour (m :: l) = true := by simp [openContour, hm]
  refine ⟨k, h1, by simp [h2, ho], ?_⟩
  rw [h3, if_neg (by simp [hm]), wantedStrokes, if_pos ho]
  rfl

theorem closed_wanted {c : Contour PD} (h : ClosedRun c) : wantedStrokes c = piecesBetween (c ++ c.take 1) := by
  rw [wantedStrokes, if_neg, around_eq]
  obtain ⟨h1, h2⟩ := h
  cases c with
  | nil => exact absurd rfl h1
  | cons p l => rcases h2 p (List.mem_cons_self ..) with h | h <;> simp [openContour, h]

theorem closedRun_around (conic : ConicToQuads) {c : Contour PD} (h : ClosedRun c) : DrawsAround conic c (piecesBetween (c ++ c.take 1)) := by
  rw [← closed_wanted h]
  have hw := around_eq c
  obtain ⟨h1, h2⟩ := h
  cases c with
  | nil => exact absurd rfl h1
  | cons p l =>
    have hp := h2 p (List.mem_cons_self ..)
    obtain ⟨k, e1, e2, e3⟩ := C110_draws conic p l (Or.inr hp) fun x hx => h2 x (List.mem_cons_of_mem _ hx)
    have ho : openContour (p :: l) = false := by rcases hp with h | h <;> simp [openContour, h]
    have e4 : k.closed = true := by rw [e2, ho]; rfl
    by_cases hn : p.ptype = .line ∧ sameOrNaN ((l.getLastD p).x, (l.getLastD p).y) (p.x, p.y)
    · refine Or.inr ⟨_, _, hn.2, ((p :: l).zip l).map wantedStroke, ?_, k, e1, by simp [e4], ?_⟩
      · simp [wantedStrokes, ho, closedPairs_any, wantedStroke, hn.1]
      · rw [e3, if_pos hn, wantedStrokes, ho]
        simp [closedPairs_any]
    · exact Or.inl ⟨k, e1, by simp [e4], by rw [e3, if_neg hn]⟩

/-! ## Edits of cubic contours -/

theorem cubic_of_kind {i : MInner PD} (h : kind i = .cubic) : ∃ d, i = .cubic d := by
  cases i with
  | cubic d => exact ⟨d, rfl⟩
  | quad d => cases h
  | hyper d => cases h

theorem map_cubic_inj {l k : List (Point PD)} (h : l.map MPoint.cubic = k.map MPoint.cubic) : l = k :=
  (List.map_injective_iff.2 fun _ _ h => by cases h; rfl) h

theorem run_delete {c : Contour PD} {op : Option (ContourOp (MContour PD))} {c' : MContour PD} {n : Nat}
    (h : (Edit.delete n).run ⟨.cubic c, op⟩ = .ok c') : c'.inner = .cubic (c.eraseIdx n) := by
  obtain ⟨hk, -, hp⟩ := C48_points _ _ _ h
  obtain ⟨d, hd⟩ := cubic_of_kind hk
  rw [hd] at hp ⊢
  simp only [pts, List.eraseIdx_map] at hp
  rw [map_cubic_inj hp]

theorem run_insert {c : Contour PD} {op : Option (ContourOp (MContour PD))} {c' : MContour PD} {n : Nat} {p : Point PD}
    (h : (Edit.insert n (.cubic p)).run ⟨.cubic c, op⟩ = .ok c') : c'.inner = .cubic (c.insertIdx n p) := by
  obtain ⟨hk, -, hp⟩ := C48_points _ _ _ h
  obtain ⟨d, hd⟩ := cubic_of_kind hk
  rw [hd] at hp ⊢
  simp only [pts, ← List.map_insertIdx] at hp
  rw [map_cubic_inj hp]

theorem run_sub {c : Contour PD} {op : Option (ContourOp (MContour PD))} {c' : MContour PD} {s e : Nat}
    (h : (Edit.sub s e).run ⟨.cubic c, op⟩ = .ok c') : s ≤ e ∧ e ≤ c.length ∧ c'.inner = .cubic ((c.take e).drop s) := by
  obtain ⟨hk, h1, h2, hp⟩ := C48_points _ _ _ h
  obtain ⟨d, hd⟩ := cubic_of_kind hk
  rw [hd] at hp ⊢
  simp only [pts, ← List.map_take, ← List.map_drop] at hp
  rw [map_cubic_inj hp]
  exact ⟨h1, by simpa [pts] using h2, rfl⟩

theorem run_append {c d : Contour PD} {op oq : Option (ContourOp (MContour PD))} {c' : MContour PD}
    (h : (Edit.append ⟨.cubic d, oq⟩).run ⟨.cubic c, op⟩ = .ok c') : c'.inner = .cubic (c ++ d) := by
  obtain ⟨hk, -, hp⟩ := C48_points _ _ _ h
  obtain ⟨k, hd⟩ := cubic_of_kind hk
  rw [hd] at hp ⊢
  simp only [pts, ← List.map_append] at hp
  rw [map_cubic_inj hp]

theorem eraseIdx_mid {α : Type} (a : List α) (p : α) (b : List α) : (a ++ p :: b).eraseIdx a.length = a ++ b := by
  induction a with
  | nil => rfl
  | cons x a ih => simp [ih]

theorem insertIdx_mid {α : Type} (a : List α) (p : α) (b : List α) : (a ++ b).insertIdx a.length p = a ++ p :: b := by
  induction a with
  | nil => rfl
  | cons x a ih => simp [ih]

theorem openRun_erase {a : List (Point PD)} {x p : Point PD} {b : List (Point PD)} (h : OpenRun (a ++ x :: p :: b)) : OpenRun (a ++ x :: b) := by
  obtain ⟨m, l, e, hm, hl⟩ := h
  cases a with
  | nil =>
    cases e
    exact ⟨x, b, rfl, hm, fun y hy => hl y (List.mem_cons_of_mem _ hy)⟩
  | cons q a =>
    rw [List.cons_append] at e
    injection e with e1 e2
    subst e1 e2
    refine ⟨q, a ++ x :: b, rfl, hm, fun y hy => hl y ?_⟩
    simp only [List.mem_append, List.mem_cons] at hy ⊢
    tauto

theorem closedRun_erase {a : List (Point PD)} {x p : Point PD} {b : List (Point PD)} (h : ClosedRun (a ++ x :: p :: b)) : ClosedRun (a ++ x :: b) := by
  refine ⟨by simp, fun y hy => h.2 y ?_⟩
  simp only [List.mem_append, List.mem_cons] at hy ⊢
  tauto

/-- **C129**: deleting a point between others of an open contour replaces the two pieces at it by one, and all other
pieces stay. -/
theorem C129_delete_open (conic : ConicToQuads) (a b : List (Point PD)) (x p y : Point PD) (op : Option (ContourOp (MContour PD))) (c' : MContour PD)
    (ho : OpenRun (a ++ x :: p :: y :: b)) (h : (Edit.delete (a.length + 1)).run ⟨.cubic (a ++ x :: p :: y :: b), op⟩ = .ok c') :
    DrawsJust conic (a ++ x :: p :: y :: b) False (piecesBetween (a ++ [x]) ++ [pieceTo x p, pieceTo p y] ++ piecesBetween (y :: b)) ∧
    ∃ d, c'.inner = .cubic d ∧ DrawsJust conic d False (piecesBetween (a ++ [x]) ++ [pieceTo x y] ++ piecesBetween (y :: b)) := by
  have e1 : piecesBetween (a ++ x :: p :: y :: b) = piecesBetween (a ++ [x]) ++ [pieceTo x p, pieceTo p y] ++ piecesBetween (y :: b) := by
    rw [between_split, between_cons, between_cons]; simp
  have e2 : piecesBetween (a ++ x :: y :: b) = piecesBetween (a ++ [x]) ++ [pieceTo x y] ++ piecesBetween (y :: b) := by
    rw [between_split, between_cons]; simp
  have hd := run_delete h
  rw [show a ++ x :: p :: y :: b = (a ++ [x]) ++ p :: y :: b by simp, show a.length + 1 = (a ++ [x]).length by simp, eraseIdx_mid,
    List.append_assoc, List.singleton_append] at hd
  exact ⟨e1 ▸ openRun_draws conic ho, _, hd, e2 ▸ openRun_draws conic (openRun_erase ho)⟩

/-- **C129**: deleting the last point of an open contour takes away the last piece. -/
theorem C129_delete_last (conic : ConicToQuads) (a : List (Point PD)) (x p : Point PD) (op : Option (ContourOp (MContour PD))) (c' : MContour PD)
    (ho : OpenRun (a ++ [x, p])) (h : (Edit.delete (a.length + 1)).run ⟨.cubic (a ++ [x, p]), op⟩ = .ok c') :
    DrawsJust conic (a ++ [x, p]) False (piecesBetween (a ++ [x]) ++ [pieceTo x p]) ∧
    ∃ d, c'.inner = .cubic d ∧ DrawsJust conic d False (piecesBetween (a ++ [x])) := by
  have e1 : piecesBetween (a ++ [x, p]) = piecesBetween (a ++ [x]) ++ [pieceTo x p] := by
    rw [between_split, between_cons]; rfl
  have hd := run_delete h
  rw [show a ++ [x, p] = (a ++ [x]) ++ p :: [] by simp, show a.length + 1 = (a ++ [x]).length by simp, eraseIdx_mid, List.append_nil] at hd
  exact ⟨e1 ▸ openRun_draws conic ho, _, hd, openRun_draws conic (openRun_erase ho)⟩

/-- What a closed contour with a run of points in it draws. -/
theorem around_at (a : List (Point PD)) (x : Point PD) (b : List (Point PD)) :
    piecesBetween ((a ++ x :: b) ++ (a ++ x :: b).take 1) = piecesBetween (a ++ [x]) ++ piecesBetween (x :: (b ++ (a ++ [x]).take 1)) := by
  have ht : (a ++ x :: b).take 1 = (a ++ [x]).take 1 := by cases a <;> simp
  rw [ht, show a ++ x :: b ++ (a ++ [x]).take 1 = a ++ x :: (b ++ (a ++ [x]).take 1) by simp, between_split]

/-- **C129**: deleting a point of a closed contour other than the first, between the points `x` and `y`, replaces the two
pieces at it by one.  The point after the last one is the first. -/
theorem C129_delete_closed (conic : ConicToQuads) (a b : List (Point PD)) (x p y : Point PD) (rest : List (Point PD)) (op : Option (ContourOp (MContour PD)))
    (c' : MContour PD) (hc : ClosedRun (a ++ x :: p :: b)) (hy : b ++ (a ++ [x]).take 1 = y :: rest)
    (h : (Edit.delete (a.length + 1)).run ⟨.cubic (a ++ x :: p :: b), op⟩ = .ok c') :
    DrawsAround conic (a ++ x :: p :: b) (piecesBetween (a ++ [x]) ++ [pieceTo x p, pieceTo p y] ++ piecesBetween (y :: rest)) ∧
    ∃ d, c'.inner = .cubic d ∧ DrawsAround conic d (piecesBetween (a ++ [x]) ++ [pieceTo x y] ++ piecesBetween (y :: rest)) := by
  have hd := run_delete h
  rw [show a ++ x :: p :: b = (a ++ [x]) ++ p :: b by simp, show a.length + 1 = (a ++ [x]).length by simp, eraseIdx_mid,
    List.append_assoc, List.singleton_append] at hd
  refine ⟨?_, _, hd, ?_⟩
  · have := closedRun_around conic hc
    rw [around_at, List.cons_append, hy, between_cons, between_cons] at this
    simpa using this
  · have := closedRun_around conic (closedRun_erase hc)
    rw [around_at, hy, between_cons] at this
    simpa using this

theorem between_last {k : List (Point PD)} {z : Point PD} (hz : k.getLast? = some z) (q : Point PD) :
    piecesBetween (k ++ [q]) = piecesBetween k ++ [pieceTo z q] := by
  obtain ⟨k, rfl⟩ := List.getLast?_eq_some_iff.1 hz
  rw [List.append_assoc, List.singleton_append, between_split]
  rfl

/-- **C129**: so does deleting its first point. -/
theorem C129_delete_first (conic : ConicToQuads) (p y z : Point PD) (b : List (Point PD)) (op : Option (ContourOp (MContour PD))) (c' : MContour PD)
    (hc : ClosedRun (p :: y :: b)) (hz : (y :: b).getLast? = some z) (h : (Edit.delete 0).run ⟨.cubic (p :: y :: b), op⟩ = .ok c') :
    DrawsAround conic (p :: y :: b) ([pieceTo p y] ++ piecesBetween (y :: b) ++ [pieceTo z p]) ∧
    ∃ d, c'.inner = .cubic d ∧ DrawsAround conic d (piecesBetween (y :: b) ++ [pieceTo z y]) := by
  have hd := run_delete h
  refine ⟨?_, y :: b, hd, ?_⟩
  · have := closedRun_around conic hc
    rw [show p :: y :: b ++ (p :: y :: b).take 1 = p :: y :: (b ++ [p]) by simp, between_cons, ← List.cons_append, between_last hz] at this
    simpa using this
  · have hc' : ClosedRun (y :: b) := ⟨by simp, fun x hx => hc.2 x (List.mem_cons_of_mem _ hx)⟩
    have := closedRun_around conic hc'
    rwa [show y :: b ++ (y :: b).take 1 = y :: b ++ [y] by simp, between_last hz] at this

/-- **C129**: inserting a line or curve point after the first point of an open contour replaces one piece by two, or
adds one at the end. -/
theorem C129_insert_open (conic : ConicToQuads) (a b : List (Point PD)) (x p : Point PD) (op : Option (ContourOp (MContour PD))) (c' : MContour PD)
    (hp : p.ptype = .line ∨ p.ptype = .curve) (ho : OpenRun (a ++ x :: b))
    (h : (Edit.insert (a.length + 1) (.cubic p)).run ⟨.cubic (a ++ x :: b), op⟩ = .ok c') :
    DrawsJust conic (a ++ x :: b) False (piecesBetween (a ++ [x]) ++ piecesBetween (x :: b)) ∧
    ∃ d, c'.inner = .cubic d ∧ DrawsJust conic d False (piecesBetween (a ++ [x]) ++ [pieceTo x p] ++ piecesBetween (p :: b)) := by
  have hd := run_insert h
  rw [show a ++ x :: b = (a ++ [x]) ++ b by simp, show a.length + 1 = (a ++ [x]).length by simp, insertIdx_mid,
    List.append_assoc, List.singleton_append] at hd
  refine ⟨between_split a x b ▸ openRun_draws conic ho, _, hd, ?_⟩
  have hr : OpenRun (a ++ x :: p :: b) := by
    obtain ⟨m, l, e, hm, hl⟩ := ho
    cases a with
    | nil =>
      cases e
      exact ⟨x, p :: b, rfl, hm, fun y hy => (List.mem_cons.1 hy).elim (fun e => e ▸ hp) (hl y)⟩
    | cons q a =>
      rw [List.cons_append] at e
      injection e with e1 e2
      subst e1 e2
      refine ⟨q, a ++ x :: p :: b, rfl, hm, fun y hy => ?_⟩
      simp only [List.mem_append, List.mem_cons] at hy
      rcases hy with hy | rfl | rfl | hy
      · exact hl y (by simp [hy])
      · exact hl y (by simp)
      · exact hp
      · exact hl y (by simp [hy])
  have := openRun_draws conic hr
  rw [between_split, between_cons] at this
  simpa using this

/-- **C129**: inserting a line or curve point in a closed contour, after its first point or at the end, replaces one
piece by two. -/
theorem C129_insert_closed (conic : ConicToQuads) (a b : List (Point PD)) (x p y : Point PD) (rest : List (Point PD)) (op : Option (ContourOp (MContour PD)))
    (c' : MContour PD) (hp : p.ptype = .line ∨ p.ptype = .curve) (hc : ClosedRun (a ++ x :: b)) (hy : b ++ (a ++ [x]).take 1 = y :: rest)
    (h : (Edit.insert (a.length + 1) (.cubic p)).run ⟨.cubic (a ++ x :: b), op⟩ = .ok c') :
    DrawsAround conic (a ++ x :: b) (piecesBetween (a ++ [x]) ++ [pieceTo x y] ++ piecesBetween (y :: rest)) ∧
    ∃ d, c'.inner = .cubic d ∧ DrawsAround conic d (piecesBetween (a ++ [x]) ++ [pieceTo x p, pieceTo p y] ++ piecesBetween (y :: rest)) := by
  have hd := run_insert h
  rw [show a ++ x :: b = (a ++ [x]) ++ b by simp, show a.length + 1 = (a ++ [x]).length by simp, insertIdx_mid,
    List.append_assoc, List.singleton_append] at hd
  refine ⟨?_, _, hd, ?_⟩
  · have := closedRun_around conic hc
    rw [around_at, hy, between_cons] at this
    simpa using this
  · have hr : ClosedRun (a ++ x :: p :: b) := by
      refine ⟨by simp, fun z hz => ?_⟩
      simp only [List.mem_append, List.mem_cons] at hz
      rcases hz with hz | rfl | rfl | hz
      · exact hc.2 z (by simp [hz])
      · exact hc.2 z (by simp)
      · exact hp
      · exact hc.2 z (by simp [hz])
    have := closedRun_around conic hr
    rw [around_at, List.cons_append, hy, between_cons, between_cons] at this
    simpa using this

/-- **C129**: the first part of an open contour draws what was between its points. -/
theorem C129_sub_partial (conic : ConicToQuads) (c : Contour PD) (e : Nat) (op : Option (ContourOp (MContour PD))) (c' : MContour PD)
    (ho : OpenRun c) (he : 0 < e) (h : (Edit.sub 0 e).run ⟨.cubic c, op⟩ = .ok c') :
    ∃ d, c'.inner = .cubic d ∧ DrawsJust conic d False (piecesBetween (c.take e)) ∧
      ∃ more, DrawsJust conic c False (piecesBetween (c.take e) ++ more) := by
  obtain ⟨-, hl, hd⟩ := run_sub h
  have hc := openRun_draws conic ho
  obtain ⟨m, l, rfl, hm, hx⟩ := ho
  obtain ⟨e, rfl⟩ : ∃ k, e = k + 1 := ⟨e - 1, by omega⟩
  refine ⟨_, hd, openRun_draws conic ⟨m, l.take e, rfl, hm, fun x hx' => hx x (List.mem_of_mem_take hx')⟩, ?_⟩
  have hk : ((m :: l).take (e + 1)) ≠ [] := by simp
  obtain ⟨k, z, hz⟩ : ∃ k z, (m :: l).take (e + 1) = k ++ [z] := ⟨_, _, (List.dropLast_append_getLast hk).symm⟩
  refine ⟨piecesBetween (z :: (m :: l).drop (e + 1)), ?_⟩
  rw [hz, ← between_split, show k ++ z :: (m :: l).drop (e + 1) = (k ++ [z]) ++ (m :: l).drop (e + 1) by simp, ← hz, List.take_append_drop]
  exact hc

/-- **C129**: appending a contour that begins with a line or curve point to an open one draws the pieces of both, and
one between them. -/
theorem C129_append_partial (conic : ConicToQuads) (a : List (Point PD)) (x y : Point PD) (b : List (Point PD)) (op oq : Option (ContourOp (MContour PD)))
    (c' : MContour PD) (ho : OpenRun (a ++ [x])) (hd : ClosedRun (y :: b)) (h : (Edit.append ⟨.cubic (y :: b), oq⟩).run ⟨.cubic (a ++ [x]), op⟩ = .ok c') :
    DrawsJust conic (a ++ [x]) False (piecesBetween (a ++ [x])) ∧
    ∃ d, c'.inner = .cubic d ∧ DrawsJust conic d False (piecesBetween (a ++ [x]) ++ [pieceTo x y] ++ piecesBetween (y :: b)) := by
  have hr := run_append h
  rw [List.append_assoc, List.singleton_append] at hr
  refine ⟨openRun_draws conic ho, _, hr, ?_⟩
  have : OpenRun (a ++ x :: y :: b) := by
    obtain ⟨m, l, e, hm, hl⟩ := ho
    refine ⟨m, l ++ y :: b, ?_, hm, fun z hz => ?_⟩
    · rw [← List.cons_append, ← e]; simp
    · rcases List.mem_append.1 hz with hz | hz
      · exact hl z hz
      · exact hd.2 z hz
  have := openRun_draws conic this
  rw [between_split, between_cons] at this
  simpa using this

/-! ## Opening and closing -/

theorem pieces_first (p : Point PD) (t : PointType) (l : List (Point PD)) : piecesBetween ({ p with ptype := t } :: l) = piecesBetween (p :: l) := by
  cases l with
  | nil => rfl
  | cons q l => rfl

/-- **C129**: opening a closed contour takes away the piece from its last point to its first, and nothing else. -/
theorem C129_set_open (conic : ConicToQuads) (p z : Point PD) (l : List (Point PD)) (op : Option (ContourOp (MContour PD))) (c' : MContour PD)
    (hc : ClosedRun (p :: l)) (hz : (p :: l).getLast? = some z) (h : Edit.setOpen.run ⟨.cubic (p :: l), op⟩ = .ok c') :
    DrawsAround conic (p :: l) (piecesBetween (p :: l) ++ [pieceTo z p]) ∧
    ∃ d, c'.inner = .cubic d ∧ DrawsJust conic d False (piecesBetween (p :: l)) := by
  refine ⟨?_, { p with ptype := .move } :: l, ?_, ?_⟩
  · have := closedRun_around conic hc
    rwa [show (p :: l).take 1 = [p] by simp, between_last hz] at this
  · cases h; rfl
  · rw [← pieces_first p .move l]
    exact openRun_draws conic ⟨_, l, rfl, rfl, fun x hx => hc.2 x (List.mem_cons_of_mem _ hx)⟩

/-- **C129**: closing a contour of lines and curves, whichever kind its first point is of, draws what was between its
points, and a curve with the handles of its last and first points between these. -/
theorem C129_set_closed (conic : ConicToQuads) (p z : Point PD) (l : List (Point PD)) (op : Option (ContourOp (MContour PD))) (c' : MContour PD)
    (hl : ∀ x ∈ l, x.ptype = .line ∨ x.ptype = .curve) (hn : l ≠ []) (hz : l.getLast? = some z) (h : Edit.setClosed.run ⟨.cubic (p :: l), op⟩ = .ok c') :
    ∃ d, c'.inner = .cubic d ∧ DrawsJust conic d True (piecesBetween (p :: l) ++ [.cubic (z.x, z.y) (outPos z) (inPos p) (p.x, p.y)]) := by
  refine ⟨{ p with ptype := .curve } :: l, by cases h; rfl, ?_⟩
  have hr : ClosedRun ({ p with ptype := .curve } :: l) := ⟨by simp, fun x hx => (List.mem_cons.1 hx).elim (fun e => e ▸ Or.inr rfl) (hl x)⟩
  have hz' : ({ p with ptype := .curve } :: l).getLast? = some z := by
    cases l with
    | nil => exact absurd rfl hn
    | cons q l => rwa [List.getLast?_cons_cons]
  have := closedRun_around conic hr
  rw [show ({ p with ptype := .curve } :: l).take 1 = [{ p with ptype := .curve }] by simp, between_last hz', pieces_first] at this
  rcases this with h | ⟨a, b, _, k, e, -⟩
  · exact h
  · have := (List.append_inj' e rfl).2
    cases this

/-- **C129**: closing a contour that is closed already with a line leaves what is drawn only if the handles there are
colocated with their points: otherwise the line becomes a curve. -/
theorem C129_close_again (conic : ConicToQuads) (p z : Point PD) (l : List (Point PD)) (op : Option (ContourOp (MContour PD))) (c' : MContour PD)
    (hc : ClosedRun (p :: l)) (ht : p.ptype = .line) (hn : l ≠ []) (hz : l.getLast? = some z) (h : Edit.setClosed.run ⟨.cubic (p :: l), op⟩ = .ok c') :
    ∃ before after d, c'.inner = .cubic d ∧ DrawsAround conic (p :: l) before ∧ DrawsJust conic d True after ∧
      (after.map Stroke.poly = before.map Stroke.poly ↔ outPos z = (z.x, z.y) ∧ inPos p = (p.x, p.y)) := by
  obtain ⟨d, h1, h2⟩ := C129_set_closed conic p z l op c' (fun x hx => hc.2 x (List.mem_cons_of_mem _ hx)) hn hz h
  have hz' : (p :: l).getLast? = some z := by
    cases l with
    | nil => exact absurd rfl hn
    | cons q l => rwa [List.getLast?_cons_cons]
  have h3 := closedRun_around conic hc
  rw [show (p :: l).take 1 = [p] by simp, between_last hz'] at h3
  refine ⟨_, _, d, h1, h3, h2, ?_⟩
  rw [List.map_append, List.map_append, List.append_cancel_left_eq]
  simp only [pieceTo, wantedStroke, ht, reduceCtorEq, if_false, Stroke.poly, Prod.mk.injEq, List.map_cons, List.map_nil, List.cons.injEq, and_true, true_and]

/-! ## Open and closed -/

theorem open_cons (p : Point PD) (l : List (Point PD)) : openContour (p :: l) = decide (p.ptype = .move) := by
  simp [openContour]

/-- **C129**: deleting the first point of an open contour of two points or more closes it; deleting any other point, or
one of a closed contour, does not change whether it is open. -/
theorem C129_open_delete (c : Contour PD) (n : Nat) (op : Option (ContourOp (MContour PD))) (c' : MContour PD)
    (hc : OpenRun c ∨ ClosedRun c) (h2 : 2 ≤ c.length) (h : (Edit.delete n).run ⟨.cubic c, op⟩ = .ok c') :
    ∃ d, c'.inner = .cubic d ∧ (openContour d = openContour c ↔ n ≠ 0 ∨ ClosedRun c) := by
  refine ⟨_, run_delete h, ?_⟩
  rcases hc with ⟨m, l, rfl, hm, hl⟩ | hc
  · have hn : ¬ ClosedRun (m :: l) := fun h => by
      have := h.2 m (List.mem_cons_self ..)
      rw [hm] at this
      rcases this with h | h <;> cases h
    cases n with
    | succ n => simp [open_cons]
    | zero =>
      cases l with
      | nil => simp at h2
      | cons y l => rcases hl y (List.mem_cons_self ..) with hy | hy <;> simp [open_cons, hy, hm, hn]
  · simp only [hc, or_true, iff_true]
    obtain ⟨h1, hl⟩ := hc
    have key : ∀ d : Contour PD, d ≠ [] → (∀ x ∈ d, x.ptype = .line ∨ x.ptype = .curve) → openContour d = false := by
      intro d hd hx
      cases d with
      | nil => exact absurd rfl hd
      | cons p d => rcases hx p (List.mem_cons_self ..) with h | h <;> simp [open_cons, h]
    rw [key c h1 hl, key _ ?_ fun x hx => hl x (List.mem_of_mem_eraseIdx hx)]
    intro he
    have := congrArg List.length he
    rw [List.length_eraseIdx] at this
    split at this <;> simp only [List.length_nil] at this <;> omega

/-- **C129**: a part of an open contour is open only if it begins at the first point. -/
theorem C129_open_sub (c : Contour PD) (s e : Nat) (op : Option (ContourOp (MContour PD))) (c' : MContour PD)
    (hc : OpenRun c) (hse : s < e) (h : (Edit.sub s e).run ⟨.cubic c, op⟩ = .ok c') :
    ∃ d, c'.inner = .cubic d ∧ (openContour d = true ↔ s = 0) := by
  obtain ⟨-, hl, hd⟩ := run_sub h
  refine ⟨_, hd, ?_⟩
  obtain ⟨m, l, rfl, hm, hx⟩ := hc
  obtain ⟨e, rfl⟩ : ∃ k, e = k + 1 := ⟨e - 1, by omega⟩
  cases s with
  | zero => simp [open_cons, hm]
  | succ s =>
    simp only [List.take_succ_cons, List.drop_succ_cons, Nat.add_one_ne_zero, iff_false]
    cases hq : (l.take e).drop s with
    | nil =>
      have := congrArg List.length hq
      simp at this hl
      omega
    | cons y k =>
      have hy : y ∈ l := List.mem_of_mem_take (List.mem_of_mem_drop (hq ▸ List.mem_cons_self ..))
      rcases hx y hy with h | h <;> simp [open_cons, h]

/-- **C129**: appending never changes whether a contour with points is open. -/
theorem C129_open_append (c d : Contour PD) (op oq : Option (ContourOp (MContour PD))) (c' : MContour PD) (hc : c ≠ [])
    (h : (Edit.append ⟨.cubic d, oq⟩).run ⟨.cubic c, op⟩ = .ok c') : ∃ k, c'.inner = .cubic k ∧ openContour k = openContour c := by
  refine ⟨_, run_append h, ?_⟩
  cases c with
  | nil => exact absurd rfl hc
  | cons p c => simp [open_cons]

/-! ## What the code does otherwise -/

theorem segsOf_count (conic : ConicToQuads) (l : List (Point PD)) : ∀ (p : Point PD) (s : SkPoint),
    (strokesFrom conic s (segsOf p l)).length = (l.filter fun x => x.ptype = .line ∨ x.ptype = .curve ∨ x.ptype = .qcurve).length := by
  induction l with
  | nil => intro p s; rfl
  | cons q l ih =>
    intro p s
    rw [segsOf, strokesFrom_append, List.length_append, ih q]
    unfold segOf
    cases hq : q.ptype <;> simp [hq, strokesFrom, SkSeg.strokes] <;> omega

/-- **C129 does not hold** for appending an open contour: its move point becomes one between others, to which nothing is
drawn, so that one piece is lost whichever is taken for the one between them. -/
theorem C129_append_false (conic : ConicToQuads) (c d : Contour PD) (op oq : Option (ContourOp (MContour PD))) (c' : MContour PD)
    (hc : OpenRun c) (hd : OpenRun d) (h : (Edit.append ⟨.cubic d, oq⟩).run ⟨.cubic c, op⟩ = .ok c') :
    ∃ k, c'.inner = .cubic k ∧ ∀ join, ¬ DrawsJust conic k False (piecesBetween c ++ [join] ++ piecesBetween d) := by
  refine ⟨_, run_append h, fun join hj => ?_⟩
  obtain ⟨m, l, rfl, hm, hl⟩ := hc
  obtain ⟨n, k, rfl, hn, hk⟩ := hd
  obtain ⟨s, h1, h2, h3⟩ := hj
  rw [List.cons_append, toSkiaPath_els] at h1
  have hs := SkContour.els_inj (Option.some.inj h1)
  have h4 := congrArg List.length h3
  have hb : ∀ (p : Point PD) (l : List (Point PD)), (piecesBetween (p :: l)).length = l.length := by
    intro p l; simp [piecesBetween, openPairs]
  have hf : ∀ l : List (Point PD), (∀ x ∈ l, x.ptype = .line ∨ x.ptype = .curve) →
      l.filter (fun x => x.ptype = .line ∨ x.ptype = .curve ∨ x.ptype = .qcurve) = l := by
    intro l hl
    refine List.filter_eq_self.2 fun x hx => ?_
    rcases hl x hx with h | h <;> simp [h]
  rw [← hs] at h4
  have hk' : (skContourOf m (l ++ n :: k)).strokes conic = strokesFrom conic (m.x, m.y) (segsOf m (l ++ n :: k)) := by
    simp [SkContour.strokes, skContourOf, hm]
  rw [hk', segsOf_count, List.filter_append, List.filter_cons_of_neg (by simp [hn]), hf l hl, hf k hk, List.length_append, List.length_append,
    List.length_append, hb, hb, List.length_singleton] at h4
  omega

theorem not_open_of_closed {conic : ConicToQuads} {c : Contour PD} {l : List Stroke} (h : ClosedRun c) : ¬ DrawsJust conic c False l := by
  rintro ⟨k, h1, h2, -⟩
  have e : ∃ s, DrawsJust conic c True s := by
    rcases closedRun_around conic h with h | ⟨_, _, _, k, _, h⟩
    · exact ⟨_, h⟩
    · exact ⟨_, h⟩
  obtain ⟨s, j, e1, e2, -⟩ := e
  rw [e1] at h1
  have := SkContour.els_inj (Option.some.inj h1)
  rw [this] at e2
  exact h2.1 (e2.2 trivial)

/-- **C129 does not hold** for deleting the first point of an open contour: what is left is closed, so that it does not
draw what was between the points that stay. -/
theorem C129_delete_false (conic : ConicToQuads) (m y : Point PD) (b : List (Point PD)) (op : Option (ContourOp (MContour PD))) (c' : MContour PD)
    (ho : OpenRun (m :: y :: b)) (h : (Edit.delete 0).run ⟨.cubic (m :: y :: b), op⟩ = .ok c') :
    ∃ d, c'.inner = .cubic d ∧ ClosedRun d ∧ ¬ DrawsJust conic d False (piecesBetween (y :: b)) := by
  have hd := run_delete h
  obtain ⟨m', l, e, hm, hl⟩ := ho
  injection e with e1 e2
  subst e1 e2
  have hr : ClosedRun (y :: b) := ⟨by simp, hl⟩
  exact ⟨y :: b, hd, hr, not_open_of_closed hr⟩

/-- **C129 does not hold** for a part of an open contour that does not begin at its first point, for the same reason. -/
theorem C129_sub_false (conic : ConicToQuads) (c : Contour PD) (s e : Nat) (op : Option (ContourOp (MContour PD))) (c' : MContour PD)
    (ho : OpenRun c) (hs : 0 < s) (hse : s < e) (h : (Edit.sub s e).run ⟨.cubic c, op⟩ = .ok c') :
    ∃ d, c'.inner = .cubic d ∧ ClosedRun d ∧ ¬ DrawsJust conic d False (piecesBetween ((c.take e).drop s)) := by
  obtain ⟨-, hl, hd⟩ := run_sub h
  have hr : ClosedRun ((c.take e).drop s) := by
    obtain ⟨m, l, rfl, hm, hx⟩ := ho
    obtain ⟨e, rfl⟩ : ∃ k, e = k + 1 := ⟨e - 1, by omega⟩
    obtain ⟨s, rfl⟩ : ∃ k, s = k + 1 := ⟨s - 1, by omega⟩
    simp only [List.take_succ_cons, List.drop_succ_cons]
    refine ⟨fun hq => ?_, fun y hy => hx y (List.mem_of_mem_take (List.mem_of_mem_drop hy))⟩
    have := congrArg List.length hq
    simp at this hl
    omega
  exact ⟨_, hd, hr, not_open_of_closed hr⟩

/-! ## Samples -/
namespace Sample

/-- An open contour of three lines. -/
def stairs : Contour Unit := [pt .move 0 0, pt .line 10 0, pt .line 10 10, pt .line 20 10]

/-- A closed one. -/
def box : Contour Unit := [pt .line 0 0, pt .line 10 0, pt .line 10 10, pt .line 0 10]

theorem stairs_open : OpenRun stairs := ⟨pt .move 0 0, _, rfl, rfl, by decide⟩

theorem box_closed : ClosedRun box := ⟨by decide, by decide⟩

end Sample

open Sample in
example : ∃ c', (Edit.delete 1).run ⟨.cubic stairs, none⟩ = .ok c' := ⟨_, rfl⟩

open Sample in
example (conic : ConicToQuads) : ∃ d : Contour Unit, DrawsJust conic d False [pieceTo (pt .move 0 0) (pt .line 10 10), pieceTo (pt .line 10 10) (pt .line 20 10)] := by
  obtain ⟨-, d, -, h⟩ := C129_delete_open conic [] [pt .line 20 10] (pt .move 0 0) (pt .line 10 0) (pt .line 10 10) none _ stairs_open rfl
  exact ⟨d, h⟩

open Sample in
example (conic : ConicToQuads) : ∃ d : Contour Unit, DrawsJust conic d False (piecesBetween (stairs.take 3)) := by
  obtain ⟨-, d, -, h⟩ := C129_delete_last conic (stairs.take 2) (pt .line 10 10) (pt .line 20 10) none _ stairs_open rfl
  exact ⟨d, h⟩

open Sample in
example (conic : ConicToQuads) := C129_delete_closed conic (box.take 2) [] (pt .line 10 10) (pt .line 0 10) (pt .line 0 0) [] none _ box_closed rfl rfl

open Sample in
example (conic : ConicToQuads) := C129_delete_first conic (pt .line 0 0) (pt .line 10 0) (pt .line 0 10) (box.drop 2) none _ box_closed rfl rfl

open Sample in
example (conic : ConicToQuads) := C129_insert_open conic [pt .move 0 0] (stairs.drop 2) (pt .line 10 0) (cv 12 5 11 0 12 6) none _ (Or.inr rfl) stairs_open rfl

open Sample in
example (conic : ConicToQuads) := C129_insert_closed conic (box.take 3) [] (pt .line 0 10) (pt .line 0 5) (pt .line 0 0) [] none _ (Or.inl rfl) box_closed rfl rfl

open Sample in
example (conic : ConicToQuads) := C129_sub_partial conic stairs 2 none _ stairs_open (by decide) rfl

open Sample in
example (conic : ConicToQuads) := C129_append_partial conic (stairs.take 3) (pt .line 20 10) (pt .line 0 0) (box.drop 1) none none _ stairs_open box_closed rfl

open Sample in
example (conic : ConicToQuads) := C129_set_open conic (pt .line 0 0) (pt .line 0 10) (box.drop 1) none _ box_closed rfl rfl

open Sample in
example (conic : ConicToQuads) := C129_set_closed conic (pt .move 0 0) (pt .line 20 10) (stairs.drop 1) none _ (by decide) (by decide) rfl rfl

open Sample in
example (conic : ConicToQuads) := C129_close_again conic (pt .line 0 0) (pt .line 0 10) (box.drop 1) none _ box_closed rfl (by decide) rfl rfl

open Sample in
example := C129_open_delete stairs 0 none _ (Or.inl stairs_open) (by decide) rfl

open Sample in
example := C129_open_sub stairs 1 3 none _ stairs_open (by decide) rfl

open Sample in
example := C129_open_append stairs box none none _ (by decide) rfl

open Sample in
example (conic : ConicToQuads) := C129_append_false conic stairs stairs none none _ stairs_open stairs_open rfl

open Sample in
example (conic : ConicToQuads) := C129_delete_false conic (pt .move 0 0) (pt .line 10 0) (stairs.drop 2) none _ stairs_open rfl

open Sample in
example (conic : ConicToQuads) := C129_sub_false conic stairs 1 3 none _ stairs_open (by decide) (by decide) rfl

end GP
