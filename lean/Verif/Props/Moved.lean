import Verif.Spec.Moved
import Verif.Props.Matrix
import Verif.Props.Refigure
import Verif.Props.Reverse
import Verif.Lemmas.Mfek
/-!
# Moving contours and editing them (C132)
-/
open Fl
namespace GP
open Spec

variable {PD : Type}

/-- A handle moved by `F`. -/
def shiftHandle (F : F32 → F32 → F32 × F32) : Handle → Handle
  | .at x y => .at (F x y).1 (F x y).2
  | .colocated => .colocated

/-- A point moved by `F`. -/
def shift (F : F32 → F32 → F32 × F32) (p : Point PD) : Point PD :=
  { p with x := (F p.x p.y).1, y := (F p.x p.y).2, a := shiftHandle F p.a, b := shiftHandle F p.b }

theorem movedBy_iff {F : F32 → F32 → F32 × F32} {p q : Point PD} : MovedBy F p q ↔ q = shift F p := by
  constructor
  · rintro ⟨h1, h2, h3, h4, h5, h6, h7, h8, h9⟩
    rcases p with ⟨x, y, a, b, n, t, s, d⟩
    rcases q with ⟨x', y', a', b', n', t', s', d'⟩
    simp only at h1 h2 h3 h4 h5 h6 h7 h8 h9
    have ha : a' = shiftHandle F a := by
      cases a with
      | colocated => exact h3 rfl
      | «at» u v => exact h2 u v rfl
    have hb : b' = shiftHandle F b := by
      cases b with
      | colocated => exact h5 rfl
      | «at» u v => exact h4 u v rfl
    rw [ha, hb, h6, h7, h8, h9, show x' = (F x y).1 from congrArg Prod.fst h1, show y' = (F x y).2 from congrArg Prod.snd h1]
    rfl
  · rintro rfl
    refine ⟨rfl, ?_, ?_, ?_, ?_, rfl, rfl, rfl, rfl⟩ <;> intros <;> simp_all [shift, shiftHandle]

theorem movedContour_iff {F : F32 → F32 → F32 × F32} {c d : Contour PD} : MovedContour F c d ↔ d = c.map (shift F) := by
  unfold MovedContour
  constructor
  · intro h
    induction h with
    | nil => rfl
    | cons h _ ih => rw [List.map_cons, ← movedBy_iff.1 h, ← ih]
  · rintro rfl
    induction c with
    | nil => exact .nil
    | cons p c ih => exact .cons (movedBy_iff.2 rfl) ih

theorem shiftHandle_colocated {F : F32 → F32 → F32 × F32} {h : Handle} : shiftHandle F h = .colocated ↔ h = .colocated := by
  cases h <;> simp [shiftHandle]

theorem typeByHandles_shift (F : F32 → F32 → F32 × F32) (a b : Handle) :
    typeByHandles (shiftHandle F a) (shiftHandle F b) = typeByHandles a b := by
  unfold typeByHandles
  simp only [shiftHandle_colocated]

theorem swapped_shift (F : F32 → F32 → F32 × F32) (p : Point PD) : swapped (shift F p) = shift F (swapped p) := rfl

theorem toReversed_shift (F : F32 → F32 → F32 × F32) {c c' : Contour PD} (h : toReversed c = .ok c') :
    toReversed (c.map (shift F)) = .ok (c'.map (shift F)) := by
  cases c with
  | nil => exact nomatch h
  | cons p rest =>
    by_cases hc : p.ptype ≠ .move ∨ rest = []
    · rw [toReversed_closed hc] at h
      cases h
      rw [List.map_cons, toReversed_closed (p := shift F p) (rest := rest.map (shift F)) (hc.imp id fun h => by rw [h]; rfl)]
      simp only [List.map_cons, List.map_map, ← List.map_reverse]
      rfl
    · simp only [not_or, not_not] at hc
      obtain ⟨hp, hr⟩ := hc
      obtain ⟨mid, z, rfl⟩ := (List.eq_nil_or_concat rest).resolve_left hr
      rw [List.concat_eq_append, ← List.cons_append, toReversed_open hp] at h
      cases h
      rw [List.concat_eq_append, List.map_cons, List.map_append, List.map_singleton, ← List.cons_append,
        toReversed_open (show (shift F p).ptype = .move from hp)]
      have hh : ((mid.map (shift F) ++ [shift F z]).head (by simp)).b = shiftHandle F ((mid ++ [z]).head (by simp)).b := by
        cases mid <;> rfl
      rw [hh, show (shift F p).a = shiftHandle F p.a from rfl, typeByHandles_shift]
      simp only [List.map_cons, List.map_append, List.map_map, ← List.map_reverse, List.map_nil]
      rfl

/-- **C132.** Reversing, opening, closing, deleting, slicing and appending do to a moved contour what they do to
the contour: first editing and then moving is the same as first moving and then editing. -/
theorem C132_edits (near : SmoothTest) (F : F32 → F32 → F32 × F32) (c c' d : Contour PD) (x y : ContourEdit PD)
    (hm : MovedContour F c d) (hx : MovedEdit F x y) (he : Edited near x c c') :
    ∃ d', Edited near y d d' ∧ MovedContour F c' d' := by
  rw [movedContour_iff] at hm
  subst hm
  cases he with
  | refigure => exact hx.elim
  | round => exact hx.elim
  | matrix => exact hx.elim
  | smooth h => exact hx.elim
  | reverse h =>
    cases y <;> first | exact hx.elim | skip
    exact ⟨_, .reverse (toReversed_shift F h), movedContour_iff.2 rfl⟩
  | setOpen h =>
    cases y <;> first | exact hx.elim | skip
    cases c with
    | nil => exact nomatch h
    | cons p c =>
      cases h
      exact ⟨_, .setOpen rfl, movedContour_iff.2 rfl⟩
  | setClosed h =>
    cases y <;> first | exact hx.elim | skip
    cases c with
    | nil => exact nomatch h
    | cons p c =>
      cases h
      exact ⟨_, .setClosed rfl, movedContour_iff.2 rfl⟩
  | reversePoints h =>
    cases y <;> first | exact hx.elim | skip
    cases h
    exact ⟨_, .reversePoints rfl, movedContour_iff.2 (List.map_reverse ..).symm⟩
  | @delete _ _ i h =>
    cases y <;> first | exact hx.elim | skip
    cases hx
    obtain ⟨r, h0, h1⟩ := fmap_ok.1 h
    cases h1
    obtain ⟨h1, rfl⟩ := remove_ok.1 h0
    exact ⟨_, .delete (fmap_ok.2 ⟨_, remove_ok.2 ⟨by simpa using h1, rfl⟩, rfl⟩),
      movedContour_iff.2 (List.eraseIdx_map ..)⟩
  | @slice _ _ s e h =>
    cases y <;> first | exact hx.elim | skip
    obtain ⟨rfl, rfl⟩ := hx
    obtain ⟨r, h0, h1⟩ := fmap_ok.1 h
    cases h1
    obtain ⟨h1, h2, rfl⟩ := slice_ok.1 h0
    exact ⟨_, .slice (fmap_ok.2 ⟨_, slice_ok.2 ⟨h1, by simpa using h2, rfl⟩, rfl⟩),
      movedContour_iff.2 (by rw [List.map_drop, List.map_take])⟩
  | @append _ a r h =>
    cases y <;> first | exact hx.elim | skip
    cases h
    rw [movedContour_iff.1 hx]
    exact ⟨_, .append rfl, movedContour_iff.2 (by rw [List.map_append])⟩

theorem handleOrColocated_shift (F : F32 → F32 → F32 × F32) (p : Point PD) (wh : WhichHandle) :
    (shift F p).handleOrColocated wh = F (p.handleOrColocated wh).1 (p.handleOrColocated wh).2 := by
  unfold Point.handleOrColocated Point.handle
  cases wh with
  | neither => rfl
  | A =>
    show (match shiftHandle F p.a with | .at x y => (x, y) | .colocated => _) = _
    cases p.a <;> rfl
  | B =>
    show (match shiftHandle F p.b with | .at x y => (x, y) | .colocated => _) = _
    cases p.b <;> rfl

theorem skSegment_shift (F : F32 → F32 → F32 × F32) (p q : Point PD) :
    skSegment id id (shift F p) (shift F q) = (skSegment id id p q).map (elMoved F) := by
  unfold skSegment
  rw [show (shift F q).ptype = q.ptype from rfl]
  cases q.ptype <;> simp only [handleOrColocated_shift, List.map_cons, List.map_nil, id] <;> rfl

theorem skSegments_shift (F : F32 → F32 → F32 × F32) (p : Point PD) (l : List (Point PD)) :
    skSegments id id (shift F p) (l.map (shift F)) = (skSegments id id p l).map (elMoved F) := by
  induction l generalizing p with
  | nil => rfl
  | cons q l ih =>
    simp only [List.map_cons, skSegments, List.map_append]
    rw [skSegment_shift, ih]

/-- **C132.** The Skia path of a moved contour is the moved path of the contour. -/
theorem C132_skia (F : F32 → F32 → F32 × F32) (c d : Contour PD) (hm : MovedContour F c d) :
    toSkiaPath id id d = (toSkiaPath id id c).map (List.map (elMoved F)) := by
  rw [movedContour_iff] at hm
  subst hm
  cases c with
  | nil => rfl
  | cons p l =>
    have hl : (l.map (shift F)).getLastD (shift F p) = shift F (l.getLastD p) := by
      rcases List.eq_nil_or_concat l with rfl | ⟨m, z, rfl⟩
      · rfl
      · simp
    simp only [List.map_cons, toSkiaPath, Option.map_some, List.map_append]
    rw [skSegments_shift, hl]
    have hc : skClosing id id (shift F p) (shift F (l.getLastD p)) = (skClosing id id p (l.getLastD p)).map (elMoved F) := by
      unfold skClosing
      rw [show (shift F p).ptype = p.ptype from rfl, skSegment_shift]
      split
      · rfl
      · split <;> simp [elMoved]
    rw [hc]
    rfl

theorem settle_shift {F : F32 → F32 → F32 × F32} {p : Point PD} {h : Handle}
    (hs : OnPoint (shiftHandle F h) (shift F p) ↔ OnPoint h p) : settle (shiftHandle F h) (shift F p) = shiftHandle F (settle h p) := by
  unfold settle
  by_cases ho : OnPoint h p
  · rw [if_pos ho, if_pos (hs.2 ho)]
    rfl
  · rw [if_neg ho, if_neg fun h => ho (hs.1 h)]

theorem settle_shift_iff {F : F32 → F32 → F32 × F32} {p : Point PD} {h : Handle}
    (hs : settle (shiftHandle F h) (shift F p) = shiftHandle F (settle h p)) : OnPoint (shiftHandle F h) (shift F p) ↔ OnPoint h p := by
  cases h with
  | colocated => exact ⟨fun ⟨_, _, e, _⟩ => (nomatch e), fun ⟨_, _, e, _⟩ => (nomatch e)⟩
  | «at» x y =>
    unfold settle at hs
    by_cases ho : OnPoint (.at x y) p
    · by_cases hq : OnPoint (shiftHandle F (.at x y)) (shift F p)
      · exact ⟨fun _ => ho, fun _ => hq⟩
      · rw [if_pos ho, if_neg hq] at hs
        exact nomatch hs
    · by_cases hq : OnPoint (shiftHandle F (.at x y)) (shift F p)
      · rw [if_neg ho, if_pos hq] at hs
        exact nomatch hs
      · exact ⟨fun h => absurd h hq, fun h => absurd h ho⟩

theorem settled_shift {F : F32 → F32 → F32 × F32} {p : Point PD} (h : SameOn p (shift F p)) : settled (shift F p) = shift F (settled p) := by
  unfold settled
  rw [show (shift F p).a = shiftHandle F p.a from rfl, show (shift F p).b = shiftHandle F p.b from rfl,
    settle_shift h.1, settle_shift h.2]
  rfl

theorem closing_shift (F : F32 → F32 → F32 × F32) (c : Contour PD) : closing (c.map (shift F)) = shiftHandle F (closing c) := by
  unfold closing
  rw [List.getLast?_map]
  cases c.getLast? <;> rfl

theorem retyped_shift {F : F32 → F32 → F32 × F32} {p : Point PD} (o : Handle) (h : SameOn p (shift F p)) :
    retyped (shiftHandle F o) (shift F p) = shift F (retyped o p) := by
  unfold retyped
  rw [settled_shift h, show (shift F (settled p)).b = shiftHandle F (settled p).b from rfl, typeByHandles_shift]
  rfl

/-- **C132, for refiguring.** It commutes with moving a contour if and only if a handle lies on its point where it does
after moving. -/
theorem C132_refigure_exact (F : F32 → F32 → F32 × F32) (c d : Contour PD) (hm : MovedContour F c d) :
    MovedContour F (refigure c) (refigure d) ↔ List.Forall₂ SameOn c d := by
  rw [movedContour_iff] at hm
  subst hm
  rw [movedContour_iff]
  constructor
  · intro h
    have h1 := congrArg (List.map fun p => (p.a, p.b)) h
    have h3 : ((refigure c).map (shift F)).map (fun p => (p.a, p.b)) =
        ((refigure c).map fun p => (p.a, p.b)).map fun x : Handle × Handle => (shiftHandle F x.1, shiftHandle F x.2) := by
      rw [List.map_map, List.map_map]
      rfl
    rw [C30_handles, h3, C30_handles, List.map_map, List.map_map] at h1
    have h2 : ∀ p ∈ c, SameOn p (shift F p) := fun p hp => by
      have := (List.map_inj_left.1 h1) p hp
      simp only [Function.comp, Prod.mk.injEq] at this
      exact ⟨settle_shift_iff this.1, settle_shift_iff this.2⟩
    clear h h1 h3
    induction c with
    | nil => exact .nil
    | cons p c ih => exact .cons (h2 p (by simp)) (ih fun q hq => h2 q (by simp [hq]))
  · intro h
    have h2 : ∀ p ∈ c, SameOn p (shift F p) := by
      induction c with
      | nil => exact fun p hp => (nomatch hp)
      | cons p c ih =>
        cases h with
        | cons h hs =>
          intro q hq
          rcases List.mem_cons.1 hq with rfl | hq
          · exact h
          · exact ih hs q hq
    rw [C30_result, C30_result, closing_shift]
    match c, h2 with
    | [], _ => rfl
    | [p], h2 =>
      simp only [List.map_cons, List.map_nil, refigured, settled_shift (h2 p (by simp))]
      rfl
    | p :: q :: l, h2 =>
      have key : ∀ (l : List (Point PD)) (o : Point PD), (∀ p ∈ o :: l, SameOn p (shift F p)) →
          List.zipWith (fun o r => retyped (settled o).a r) (shift F o :: l.map (shift F)) (l.map (shift F)) =
            (List.zipWith (fun o r => retyped (settled o).a r) (o :: l) l).map (shift F) := by
        intro l
        induction l with
        | nil => exact fun o _ => rfl
        | cons r l ih =>
          intro o ho
          simp only [List.map_cons, List.zipWith_cons_cons]
          have := ih r fun p hp => ho p (by simp [hp])
          rw [settled_shift (ho o (by simp)), show (shift F (settled o)).a = shiftHandle F (settled o).a from rfl,
            retyped_shift _ (ho r (by simp)), this]
      have := key (q :: l) p h2
      simp only [List.map_cons] at this
      simp only [List.map_cons, refigured]
      rw [this, retyped_shift _ (h2 p (by simp)), settled_shift (h2 p (by simp)), show (shift F p).ptype = p.ptype from rfl]
      split <;> rfl

/-- The matrices of components and images move contours in this sense. -/
theorem C132_matrix (m : Affine) (c : Contour PD) : MovedContour m.app32 c (c.map fun p => p.applyMatrix m) := by
  obtain ⟨F, hF, h⟩ := C39_same_map (PD := PD) m
  have : F = m.app32 := by
    funext x y
    exact hF x y
  subst this
  unfold MovedContour
  induction c with
  | nil => exact .nil
  | cons p c ih => exact .cons (h p) ih

/-- The matrix that puts every point on the `y` axis. -/
def ontoAxis : Affine := ⟨Flt.ofInt b64 0, Flt.ofInt b64 0, Flt.ofInt b64 0, Flt.ofInt b64 1, Flt.ofInt b64 0, Flt.ofInt b64 0⟩

/-- **C132 is false of refiguring**: put on an axis and refigured, a curve with level handles becomes a line; refigured and
put on the axis it stays a curve. -/
theorem C132_refigure_false : ∃ (m : Affine) (c : Contour Unit),
    refigure (c.map fun p => p.applyMatrix m) ≠ (refigure c).map fun p => p.applyMatrix m := by
  refine ⟨ontoAxis, [Sample.cv 0 0 5 0 (-5) 0, Sample.cv 0 10 5 10 (-5) 10], fun h => ?_⟩
  have h2 := C132_matrix ontoAxis (refigure [Sample.cv 0 0 5 0 (-5) 0, Sample.cv 0 10 5 10 (-5) 10])
  rw [← h, C132_refigure_exact _ _ _ (C132_matrix _ _)] at h2
  rw [List.map_cons, List.forall₂_cons] at h2
  exact absurd h2.1 (by unfold SameOn; decide +kernel)

/-- The matrix that moves everything by `(3, 4)`. -/
def aside : Affine := ⟨Flt.ofInt b64 1, Flt.ofInt b64 0, Flt.ofInt b64 0, Flt.ofInt b64 1, Flt.ofInt b64 3, Flt.ofInt b64 4⟩

/-- A contour and its moved copy to which `C132_refigure_exact` applies, with a handle on its point. -/
example : MovedContour aside.app32 (refigure [Sample.cv 0 0 0 0 (-5) 0, Sample.cv 0 10 5 10 (-5) 10])
    (refigure ([Sample.cv 0 0 0 0 (-5) 0, Sample.cv 0 10 5 10 (-5) 10].map fun p => p.applyMatrix aside)) :=
  (C132_refigure_exact _ _ _ (C132_matrix _ _)).2 (.cons (by unfold SameOn; decide +kernel) (.cons (by unfold SameOn; decide +kernel) .nil))

example (near : SmoothTest) : ∃ c' d', Edited near .reverse [Sample.pt .move 0 0, Sample.pt .line 1 0, Sample.cv 2 2 3 3 1 1] c' ∧
    Edited near .reverse ([Sample.pt .move 0 0, Sample.pt .line 1 0, Sample.cv 2 2 3 3 1 1].map fun p => p.applyMatrix aside) d' ∧
    MovedContour aside.app32 c' d' := by
  obtain ⟨d', h1, h2⟩ := C132_edits near aside.app32 _ _ _ .reverse .reverse (C132_matrix aside _) trivial
    (.reverse (c := [Sample.pt .move 0 0, Sample.pt .line 1 0, Sample.cv 2 2 3 3 1 1]) rfl)
  exact ⟨_, d', .reverse rfl, h1, h2⟩

end GP
