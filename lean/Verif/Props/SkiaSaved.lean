import Verif.Spec.SkiaFile
import Verif.Props.SkiaStrokes
import Verif.Props.Resave
import Verif.Props.Format
/-!
# Saving does not change what is drawn (C113)
-/
open Fl
namespace GP
variable {PD D : Type}
open Spec

theorem rotated_of_map {α β : Type} {l m : List α} (f : α → β) (h : Rotated l m) : Rotated (l.map f) (m.map f) := by
  obtain ⟨s, t, rfl, rfl⟩ := h
  exact ⟨s.map f, t.map f, by simp, by simp⟩

theorem closedPairs_startEarlier (c : Contour PD) : closedPairs (startEarlier c) = startEarlier (closedPairs c) := by
  rcases List.eq_nil_or_concat c with rfl | ⟨k, z, rfl⟩
  · rfl
  · have h1 : startEarlier (k ++ [z]) = z :: k := by simp [startEarlier]
    rw [List.concat_eq_append, h1]
    cases k with
    | nil => rfl
    | cons b k =>
      have h2 : closedPairs (b :: k ++ [z]) = (b :: k).zip (k ++ [z]) ++ [(z, b)] := by
        unfold closedPairs
        rw [List.cons_append, List.tail_cons, List.take_succ_cons, List.take_zero, ← List.cons_append, List.zip_append (by simp)]
        rfl
      rw [h2]
      simp [startEarlier, closedPairs]

theorem wantedStroke_kept (p n m : Point PD) : wantedStroke (kept p n, kept n m) = wantedStroke (p, n) := by
  have hx : ∀ p n : Point PD, ((kept p n).x, (kept p n).y) = (p.x, p.y) := fun _ _ => rfl
  have ht : (kept n m).ptype = n.ptype := rfl
  simp only [wantedStroke, hx, ht]
  by_cases h : n.ptype = .curve
  · rw [if_pos h, if_pos h]
    have ho : outPos (kept p n) = outPos p := by simp [outPos, kept, h]
    have hi : inPos (kept n m) = inPos n := by simp [inPos, kept, h]
    rw [ho, hi]
  · rw [if_neg h, if_neg h]

theorem zip_kept (f : Point PD) (l : List (Point PD)) : ∀ p : Point PD,
    ((List.zipWith kept (p :: l) (l ++ [f])).zip (List.zipWith kept (p :: l) (l ++ [f])).tail).map wantedStroke = ((p :: l).zip l).map wantedStroke := by
  induction l with
  | nil => intro p; rfl
  | cons q l ih =>
    intro p
    have := ih q
    rw [List.cons_append, List.zipWith_cons_cons, List.tail_cons]
    cases l with
    | nil =>
      simp only [List.nil_append, List.zipWith_cons_cons, List.zipWith_nil_right, List.zip_cons_cons, List.zip_nil_right, List.map_cons, List.map_nil]
      rw [wantedStroke_kept]
    | cons r l =>
      rw [List.cons_append, List.zipWith_cons_cons] at this ⊢
      rw [List.zip_cons_cons, List.map_cons, wantedStroke_kept, List.zip_cons_cons, List.map_cons]
      rw [List.tail_cons] at this
      rw [this]

theorem getLastD_kept (f : Point PD) (l : List (Point PD)) : ∀ p : Point PD,
    (List.zipWith kept (p :: l) (l ++ [f])).getLast? = some (kept (l.getLastD p) f) := by
  induction l with
  | nil => intro p; rfl
  | cons q l ih =>
    intro p
    rw [List.cons_append, List.zipWith_cons_cons, List.getLast?_cons, ih q, List.getLastD_cons]
    rfl

/-- What a file can say about a contour is enough to draw it. -/
theorem wantedStrokes_kept (c : Contour PD) : wantedStrokes (keptContour c) = wantedStrokes c := by
  cases c with
  | nil => rfl
  | cons p l =>
    have ho : openContour (keptContour (p :: l)) = openContour (p :: l) := by
      unfold openContour keptContour
      cases l <;> rfl
    unfold wantedStrokes
    rw [ho]
    have hz := zip_kept p l p
    split
    · unfold openPairs
      exact hz
    · have hk : ∃ r, List.zipWith kept (p :: l) (l ++ [p]) = kept p (l.headD p) :: r := by
        cases l with
        | nil => exact ⟨_, rfl⟩
        | cons q l => exact ⟨_, rfl⟩
      have hl := getLastD_kept p l p
      obtain ⟨r, hr⟩ := hk
      unfold keptContour
      simp only []
      rw [hr] at hz hl ⊢
      rw [closedPairs_any, closedPairs_any, List.map_append, List.map_append, ← hz]
      have : r.getLastD (kept p (l.headD p)) = kept (l.getLastD p) p := by
        rw [List.getLast?_cons, Option.some.injEq] at hl
        rw [← hl, List.getLastD_eq_getLast?]
      rw [this, List.map_cons, List.map_cons, wantedStroke_kept]
      rfl

theorem wantedStrokes_startEarlier {c : Contour PD} (h1 : openContour c = false) (h2 : openContour (startEarlier c) = false) :
    Rotated (wantedStrokes c) (wantedStrokes (startEarlier c)) := by
  unfold wantedStrokes
  rw [h1, h2]
  simp only [Bool.false_eq_true, if_false]
  rw [closedPairs_startEarlier]
  exact rotated_of_map _ (startEarlier_rotated _)

theorem wantedStroke_unsigned (x : Point PD × Point PD) : wantedStroke (unsigned x.1, unsigned x.2) = (wantedStroke x).unsigned := by
  have ho : ∀ p : Point PD, outPos (unsigned p) = Stroke.unsigned.f (outPos p) := by
    intro p
    simp only [outPos, unsigned, unsignedHandle]
    cases p.a <;> rfl
  have hi : ∀ p : Point PD, inPos (unsigned p) = Stroke.unsigned.f (inPos p) := by
    intro p
    simp only [inPos, unsigned, unsignedHandle]
    cases p.b <;> rfl
  have ht : ∀ p : Point PD, (unsigned p).ptype = p.ptype := fun _ => rfl
  simp only [wantedStroke, ht, ho, hi]
  by_cases h : x.2.ptype = .curve
  · rw [if_pos h, if_pos h]; rfl
  · rw [if_neg h, if_neg h]; rfl

theorem openContour_unsigned (c : Contour PD) : openContour (c.map unsigned) = openContour c := by
  cases c <;> rfl

theorem wantedStrokes_unsigned (c : Contour PD) : wantedStrokes (c.map unsigned) = (wantedStrokes c).map Stroke.unsigned := by
  unfold wantedStrokes
  rw [openContour_unsigned]
  have hz : ∀ l m : Contour PD, ((l.map unsigned).zip (m.map unsigned)).map wantedStroke = ((l.zip m).map wantedStroke).map Stroke.unsigned := by
    intro l m
    rw [List.zip_map, List.map_map, List.map_map]
    exact List.map_congr_left fun x _ => wantedStroke_unsigned x
  split
  · unfold openPairs
    rw [← List.map_tail, hz]
  · unfold closedPairs
    rw [← List.map_tail, ← List.map_take, ← List.map_append, hz]

/-- `c'` draws the pieces that `c` does, perhaps from another of them on, and is open if it is. -/
def SameDrawing (c c' : Contour PD) : Prop := openContour c' = openContour c ∧ Rotated (wantedStrokes c) (wantedStrokes c')

theorem SameDrawing.trans {a b c : Contour PD} (h : SameDrawing a b) (h' : SameDrawing b c) : SameDrawing a c :=
  ⟨h'.1.trans h.1, rotated_trans h.2 h'.2⟩

theorem stepBack_draws {c : Contour PD} (h : MoveFirst c) : SameDrawing c (stepBack c) ∧ MoveFirst (stepBack c) := by
  cases c with
  | nil => exact ⟨⟨rfl, [], [], rfl, rfl⟩, h⟩
  | cons p l =>
    have hs : stepBack (p :: l) = if p.ptype = .curve then startEarlier (p :: l) else p :: l := rfl
    by_cases hp : p.ptype = .curve
    · have hall : ∀ x ∈ startEarlier (p :: l), x.ptype ≠ .move := by
        intro x hx
        rcases List.mem_cons.1 (mem_startEarlier.1 hx) with rfl | hx
        · rw [hp]; decide
        · exact h x hx
      have hno : ∀ c : Contour PD, (∀ x ∈ c, x.ptype ≠ .move) → openContour c = false := by
        intro c hc
        cases c with
        | nil => rfl
        | cons q c => exact decide_eq_false (hc q (List.mem_cons_self ..))
      have h1 : openContour (p :: l) = false := decide_eq_false (by rw [hp]; decide)
      rw [hs, if_pos hp]
      exact ⟨⟨(hno _ hall).trans h1.symm, wantedStrokes_startEarlier h1 (hno _ hall)⟩, fun x hx => hall x (List.mem_of_mem_tail hx)⟩
    · rw [hs, if_neg hp]
      exact ⟨⟨rfl, [], wantedStrokes (p :: l), rfl, by simp⟩, h⟩

theorem stepBacks_draw (k : Nat) : ∀ {c : Contour PD}, MoveFirst c → SameDrawing c (stepBack^[k] c) := by
  induction k with
  | zero => intro c _; exact ⟨rfl, [], wantedStrokes c, rfl, by simp⟩
  | succ k ih =>
    intro c h
    obtain ⟨h1, h2⟩ := stepBack_draws h
    rw [Function.iterate_succ_apply]
    exact h1.trans (ih h2)

theorem zipWith_kept_types (f : Point PD) (l : List (Point PD)) : ∀ p : Point PD,
    (List.zipWith kept (p :: l) (l ++ [f])).map (·.ptype) = (p :: l).map (·.ptype) := by
  induction l with
  | nil => intro p; rfl
  | cons q l ih =>
    intro p
    rw [List.cons_append, List.zipWith_cons_cons, List.map_cons, ih q]
    rfl

theorem keptContour_types (c : Contour PD) : (keptContour c).map (·.ptype) = c.map (·.ptype) := by
  cases c with
  | nil => rfl
  | cons p l => exact zipWith_kept_types p l p

theorem moveFirst_types {c d : Contour PD} (h : d.map (·.ptype) = c.map (·.ptype)) (hc : MoveFirst c) : MoveFirst d := by
  intro x hx
  have hm : x.ptype ∈ (d.map (·.ptype)).tail := by
    rw [← List.map_tail]; exact List.mem_map_of_mem hx
  rw [h, ← List.map_tail] at hm
  obtain ⟨y, hy, he⟩ := List.mem_map.1 hm
  rw [← he]
  exact hc y hy

theorem stored_stepBack (c : Contour PD) : stored c = stepBack (keptContour c) := by
  rcases c with _ | ⟨p, _ | ⟨q, l⟩⟩ <;> rfl

theorem openContour_types {c d : Contour PD} (h : d.map (·.ptype) = c.map (·.ptype)) : openContour d = openContour c := by
  unfold openContour
  have := congrArg List.head? h
  rw [List.head?_map, List.head?_map] at this
  cases hd : d.head? <;> cases hc : c.head? <;> rw [hd, hc] at this <;> simp at this
  simp [this]

theorem stored_draws {c : Contour PD} (h : MoveFirst c) : SameDrawing c (stored c) ∧ MoveFirst (stored c) := by
  have hk := moveFirst_types (keptContour_types c) h
  obtain ⟨h1, h2⟩ := stepBack_draws hk
  rw [stored_stepBack]
  exact ⟨⟨h1.1.trans (openContour_types (keptContour_types c)), by have := h1.2; rwa [wantedStrokes_kept] at this⟩, h2⟩

theorem stepBack_unsigned (c : Contour PD) : stepBack (c.map unsigned) = (stepBack c).map unsigned := by
  cases c with
  | nil => rfl
  | cons p l =>
    have hs : ∀ (p : Point PD) l, stepBack (p :: l) = if p.ptype = .curve then startEarlier (p :: l) else p :: l := fun _ _ => rfl
    rw [List.map_cons, hs, hs]
    by_cases hp : p.ptype = .curve
    · rw [if_pos (by exact hp), if_pos hp, ← List.map_cons, startEarlier_map]
    · rw [if_neg (by exact hp), if_neg hp, List.map_cons]

theorem stepBacks_unsigned (k : Nat) : ∀ c : Contour PD, stepBack^[k] (c.map unsigned) = (stepBack^[k] c).map unsigned := by
  induction k with
  | zero => intro c; rfl
  | succ k ih => intro c; rw [Function.iterate_succ_apply, Function.iterate_succ_apply, stepBack_unsigned, ih]

/-- **C113.** However often a glyph of lines and cubic curves is saved and read again, each of its contours draws the same
pieces in the same order, up to the one they begin with and to the signs of zeros, and is open if it was; only lone `move`
points, which draw nothing, are gone.  (C110 says that these pieces are what the Skia path of a contour draws.) -/
theorem C113_saved (mid : IOF → IOF → IOF) (pio : PlistIO D) (g : Glif PD D) (h : Saveable pio g)
    (hm : ∀ c ∈ g.outline.getD [], MoveFirst c) (k : Nat) :
    ∃ g', gtrips mid pio (k + 1) g = .ok g' ∧
      List.Forall₂ (fun c c' => openContour c' = openContour c ∧ Rotated ((wantedStrokes c).map Stroke.unsigned) (wantedStrokes c'))
        ((g.outline.getD []).filter fun c => !loneMove c) (g'.outline.getD []) := by
  obtain ⟨g1, h1, h2⟩ := C02_partial mid pio g h
  obtain ⟨g2, h3, h4⟩ := C01_partial mid pio g h
  have : g2 = g1 := by
    have := h3.symm.trans h1
    rwa [Out.ok.injEq] at this
  subst this
  refine ⟨_, h2 k, ?_⟩
  have ho : (g2.outline.map fun o => o.map stepBack^[k]).getD [] = (g2.outline.getD []).map stepBack^[k] := by
    cases g2.outline <;> rfl
  simp only [ho, h4.outline]
  unfold resavedOutline
  rw [List.map_map, List.forall₂_map_right_iff, List.forall₂_same]
  intro c hc
  obtain ⟨s1, s2⟩ := stored_draws (hm c (List.mem_of_mem_filter hc))
  have s3 := s1.trans (stepBacks_draw k s2)
  simp only [Function.comp_apply]
  rw [stepBacks_unsigned, openContour_unsigned, wantedStrokes_unsigned]
  exact ⟨s3.1, rotated_of_map _ s3.2⟩

/-- The contours of the glyph shown for `C01_partial` meet the hypothesis, and draw something. -/
example : (∀ c ∈ [[Sample.cv 0 0 1 1 2 2, Sample.pt .line 3 3, Sample.pt .curve 1 1], [Sample.pt .move 0 0, Sample.pt .line 1 1]], MoveFirst c) ∧
    (wantedStrokes [Sample.cv 0 0 1 1 2 2, Sample.pt .line 3 3, Sample.pt .curve 1 1]).length = 3 ∧
    (wantedStrokes [Sample.pt .move 0 0, Sample.pt .line 1 1]).length = 1 := by
  refine ⟨?_, rfl, rfl⟩
  simp [MoveFirst, Sample.pt]

end GP
