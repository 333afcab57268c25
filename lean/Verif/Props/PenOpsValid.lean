import Verif.Props.PenOpsExact
/-!
# Single pen operations and their validity (C69, C70)
-/
open Fl
namespace GP
variable {PD : Type}
open Spec

/-- **C69.** `len` is the number of points of an operation, and the last of them is where it ends. -/
theorem C69_len (o : PenOp) : o.len = o.points.length ∧ o.points.getLast? = opEnd o := by
  cases o <;> exact ⟨rfl, rfl⟩

/-- `simplify` changes exactly the curves whose control points are both on the end point, into the line
to that point, for whatever equality of coordinates; it keeps the end point, and the second time it does
nothing. -/
theorem C69_simplify (eq : IOF → IOF → Bool) (o : PenOp) :
    (∀ a b p, o = .curveTo a b p → eq p.x a.x = true → eq p.y a.y = true → eq p.x b.x = true → eq p.y b.y = true →
      o.simplify eq = .lineTo p) ∧
    (o.simplify eq ≠ o → ∃ a b p, o = .curveTo a b p ∧ eq p.x a.x = true ∧ eq p.y a.y = true ∧ eq p.x b.x = true ∧ eq p.y b.y = true) ∧
    opEnd (o.simplify eq) = opEnd o ∧ (o.simplify eq).simplify eq = o.simplify eq := by
  cases o with
  | curveTo a b p =>
    by_cases h : (eq p.x a.x && eq p.y a.y && eq p.x b.x && eq p.y b.y) = true
    · have e : (PenOp.curveTo a b p).simplify eq = .lineTo p := by simp only [PenOp.simplify, h, if_true]
      rw [e]
      simp only [Bool.and_eq_true] at h
      refine ⟨fun a' b' p' h' _ _ _ _ => ?_, fun _ => ⟨a, b, p, rfl, h.1.1.1, h.1.1.2, h.1.2, h.2⟩, rfl, rfl⟩
      cases h'
      rfl
    · have e : (PenOp.curveTo a b p).simplify eq = .curveTo a b p := by simp only [PenOp.simplify, h]; rfl
      rw [e]
      refine ⟨fun a' b' p' h' h1 h2 h3 h4 => ?_, fun h' => absurd rfl h', rfl, e⟩
      cases h'
      simp [h1, h2, h3, h4] at h
  | _ => exact ⟨fun _ _ _ h => (nomatch h), fun h => absurd rfl h, rfl, rfl⟩

/-! ## Validity -/

theorem zipWith_mem_right {α β γ : Type} {f : α → β → γ} {l : List α} {m : List β} {x : γ} (hx : x ∈ List.zipWith f l m) :
    ∃ b ∈ m, ∃ a, x = f a b := by
  induction l generalizing m with
  | nil => cases hx
  | cons a l ih =>
    cases m with
    | nil => cases hx
    | cons b m =>
      rcases List.mem_cons.1 hx with rfl | hx
      · exact ⟨b, List.mem_cons_self .., a, rfl⟩
      · obtain ⟨c, hc, h⟩ := ih hx
        exact ⟨c, List.mem_cons_of_mem _ hc, h⟩

theorem refigured_mem {c : Contour PD} {x : Point PD} (hx : x ∈ refigure c) : ∃ o ∈ c, ∃ t, x = { settled o with ptype := t } := by
  rw [refigure_eq] at hx
  match c with
  | [] => cases hx
  | [p] => exact ⟨p, List.mem_cons_self .., _, List.mem_singleton.1 hx⟩
  | p :: q :: rest =>
    unfold refigured at hx
    rcases List.mem_cons.1 hx with rfl | hx
    · refine ⟨p, List.mem_cons_self .., ?_⟩
      by_cases hp : p.ptype = .move
      · rw [if_pos hp]; exact ⟨_, rfl⟩
      · rw [if_neg hp]; exact ⟨_, rfl⟩
    · obtain ⟨o, ho, y, rfl⟩ := zipWith_mem_right hx
      exact ⟨o, List.mem_cons_of_mem _ ho, _, rfl⟩

theorem clean_settled {p : Point PD} (h : Clean p) (t : PointType) : Clean { settled p with ptype := t } := by
  refine ⟨h.x, h.y, fun u v e => ?_, fun u v e => ?_⟩
  · have e : settle p.a p = .at u v := e
    unfold settle at e
    split at e
    · cases e
    · exact h.a u v e
  · have e : settle p.b p = .at u v := e
    unfold settle at e
    split at e
    · cases e
    · exact h.b u v e

theorem valid_ofPoint {p : Point PD} (h : Clean p) (ht : p.ptype ≠ .undefined) : (GlifPoint.ofPoint p).isValid = true := by
  simp [GlifPoint.isValid, GlifPoint.ofPoint, IOF.ofF32, IOF.floatPart, h.x.1, h.x.2, h.y.1, h.y.2, ht]

theorem valid_fromHandle {p : Point PD} (h : Clean p) (wh : WhichHandle) : (GlifPoint.fromHandle p wh).isValid = true := by
  have key : CleanNum (p.handleOrColocated wh).1 ∧ CleanNum (p.handleOrColocated wh).2 := by
    unfold Point.handleOrColocated
    cases wh with
    | A =>
      cases hh : p.a with
      | colocated => simpa [Point.handle, hh] using ⟨h.x, h.y⟩
      | «at» u v => simpa [Point.handle, hh] using h.a u v hh
    | B =>
      cases hh : p.b with
      | colocated => simpa [Point.handle, hh] using ⟨h.x, h.y⟩
      | «at» u v => simpa [Point.handle, hh] using h.b u v hh
    | neither => exact ⟨h.x, h.y⟩
  simp [GlifPoint.isValid, GlifPoint.fromHandle, GlifPoint.fromXYType, IOF.ofF32, IOF.floatPart, key.1.1, key.1.2, key.2.1, key.2.2]

theorem valid_opOf {x y : Point PD} (hx : Clean x) (hy : Clean y) (ly : LC y) : (opOf (x, y)).isValid = true := by
  have hty : y.ptype ≠ .undefined ∧ y.ptype ≠ .offcurve := by rcases ly with e | e <;> rw [e] <;> exact ⟨by decide, by decide⟩
  unfold opOf
  split
  · rename_i h
    have h : x.ptype = .line := h
    simp only [PenOp.isValid, Bool.and_eq_true, decide_eq_true_eq]
    exact ⟨h, valid_ofPoint hx (by rw [h]; decide)⟩
  · simp only [PenOp.isValid, Bool.and_eq_true, decide_eq_true_eq]
    exact ⟨⟨⟨⟨⟨hty.2, valid_ofPoint hy hty.1⟩, rfl⟩, valid_fromHandle hx .A⟩, rfl⟩, valid_fromHandle hy .B⟩

theorem valid_tailOps (l : List (Point PD)) : ∀ z, Clean z → (∀ x ∈ l, Clean x ∧ LC x) → ∀ o ∈ tailOps z l, o.isValid = true := by
  induction l with
  | nil => intro z _ _ o ho; cases ho
  | cons x l ih =>
    intro z hz hl o ho
    cases l with
    | nil =>
      obtain ⟨hx, lx⟩ := hl x (List.mem_cons_self ..)
      rw [tailOps, List.mem_singleton] at ho
      subst ho
      by_cases h : x.ptype = .line
      · simp only [h, if_true, PenOp.isValid, Bool.and_eq_true, decide_eq_true_eq]
        exact ⟨h, valid_ofPoint hx (by rw [h]; decide)⟩
      · have := valid_opOf hz hx lx
        unfold opOf at this
        rw [if_neg h]
        by_cases h' : z.ptype = .line
        · simp only [PenOp.isValid, Bool.and_eq_true, decide_eq_true_eq]
          have hc : x.ptype = .curve := lx.resolve_left h
          exact ⟨⟨⟨⟨⟨by show x.ptype ≠ _; rw [hc]; decide, valid_ofPoint hx (by rw [hc]; decide)⟩, rfl⟩, valid_fromHandle hz .A⟩, rfl⟩, valid_fromHandle hx .B⟩
        · rwa [if_neg h'] at this
    | cons y l =>
      rw [tailOps, List.mem_cons] at ho
      obtain ⟨hx, lx⟩ := hl x (List.mem_cons_self ..)
      obtain ⟨hy, ly⟩ := hl y (List.mem_cons_of_mem _ (List.mem_cons_self ..))
      rcases ho with rfl | ho
      · exact valid_opOf hx hy ly
      · exact ih x hx (fun w hw => hl w (List.mem_cons_of_mem _ hw)) o ho

/-- **C70** for open contours: the operations of an open contour with clean coordinates are all valid. -/
theorem C70_partial_open (p q : Point PD) (rest : Contour PD) (hp : p.ptype = .move) (h : ∀ x ∈ p :: q :: rest, Clean x) :
    ∃ ops, intoPenOperations (p :: q :: rest) = .ok ops ∧ ∀ o ∈ ops, o.isValid = true := by
  obtain ⟨p', q', rest', hr, hm, hl, -, -⟩ := refigure_open (q := q) (rest := rest) hp
  refine ⟨_, intoPenOperations_open (by simp [isOpen, hp]) hr hm hl, ?_⟩
  have hcl : ∀ x ∈ p' :: q' :: rest', Clean x := by
    intro x hx
    rw [← hr] at hx
    obtain ⟨o, ho, t, rfl⟩ := refigured_mem hx
    exact clean_settled (h o ho) t
  intro o ho
  rcases List.mem_append.1 ho with ho | ho
  · split at ho
    · cases ho
    · rw [List.mem_singleton] at ho
      subst ho
      simp only [PenOp.isValid, Bool.and_eq_true, decide_eq_true_eq]
      exact ⟨hm, valid_ofPoint (hcl p' (List.mem_cons_self ..)) (by rw [hm]; decide)⟩
  · exact valid_tailOps _ p' (hcl p' (List.mem_cons_self ..)) (fun x hx => ⟨hcl x (List.mem_cons_of_mem _ hx), hl x hx⟩) o ho

/-- **C70** for closed contours, as far as it holds: with clean coordinates, all operations but the first are valid.  The first, the
`MoveTo`, never is: it carries the type of the point, which is not a move point. -/
theorem C70_partial (p q : Point PD) (rest : Contour PD) (hp : p.ptype ≠ .move) :
    ∃ o ops, intoPenOperations (p :: q :: rest) = .ok (o :: ops) ∧ o.isValid = false ∧
      ((∀ x ∈ p :: q :: rest, Clean x) → ∀ o ∈ ops, o.isValid = true) := by
  obtain ⟨p', q', rest', hr, hf⟩ := refigure_closed (closed_of p q rest hp)
  refine ⟨_, _, intoPenOperations_closed (closed_of p q rest hp) hr hf, ?_, fun h o ho => ?_⟩
  · have : (GlifPoint.ofPoint p').ptype ≠ .move := by
      show p'.ptype ≠ .move
      rcases hf.lc p' (List.mem_cons_self ..) with e | e <;> rw [e] <;> decide
    simp [PenOp.isValid, this]
  · have hcl : ∀ x ∈ p' :: q' :: rest', Clean x := by
      intro x hx
      rw [← hr] at hx
      obtain ⟨o, ho, t, rfl⟩ := refigured_mem hx
      exact clean_settled (h o ho) t
    rcases List.mem_append.1 ho with ho | ho
    · unfold midOps at ho
      have hp' : p' ∈ p' :: q' :: rest' := List.mem_cons_self ..
      have hq' : q' ∈ p' :: q' :: rest' := List.mem_cons_of_mem _ (List.mem_cons_self ..)
      rcases List.mem_append.1 ho with ho | ho
      · split at ho
        · cases ho
        · rw [List.mem_singleton] at ho
          subst ho
          exact valid_opOf (hcl _ hp') (hcl _ hq') (hf.lc _ hq')
      · obtain ⟨x, hx, rfl⟩ := List.mem_map.1 ho
        have h1 : x.1 ∈ p' :: q' :: rest' := List.mem_cons_of_mem _ (List.of_mem_zip hx).1
        have h2 : x.2 ∈ p' :: q' :: rest' := by
          rcases List.mem_append.1 (List.of_mem_zip hx).2 with h | h
          · exact List.mem_cons_of_mem _ (List.mem_cons_of_mem _ h)
          · rw [List.mem_singleton.1 h]; exact hp'
        exact valid_opOf (hcl _ h1) (hcl _ h2) (hf.lc _ h2)
    · rw [List.mem_singleton.1 ho]
      rfl

/-- **C70 is false of the code**: no closed contour is converted to valid operations only. -/
theorem C70_false (p q : Point PD) (rest : Contour PD) (hp : p.ptype ≠ .move) :
    ∃ ops, intoPenOperations (p :: q :: rest) = .ok ops ∧ ∃ o ∈ ops, o.isValid = false := by
  obtain ⟨o, ops, h1, h2, -⟩ := C70_partial p q rest hp
  exact ⟨_, h1, o, List.mem_cons_self .., h2⟩

/-! ## Exactly when -/

/-- The types of the points of an operation are as they should be. -/
def Typed : PenOp → Prop
  | .moveTo gp => gp.ptype = .move
  | .lineTo gp => gp.ptype = .line
  | .quadTo gpb gp => gp.ptype ≠ .offcurve ∧ gp.ptype ≠ .undefined ∧ gpb.ptype = .offcurve
  | .curveTo gpb gp2a gp => gp.ptype ≠ .offcurve ∧ gp.ptype ≠ .undefined ∧ gpb.ptype = .offcurve ∧ gp2a.ptype = .offcurve
  | .close => True

theorem spot_valid (p : GlifPoint) : p.isValid = true ↔ p.ptype ≠ .undefined ∧ CleanSpot p := by
  unfold GlifPoint.isValid CleanSpot CleanNum
  obtain ⟨x, y, s, n, t⟩ := p
  cases x <;> cases y <;> simp [IOF.floatPart, or_imp, forall_and, and_assoc, and_comm] <;> tauto

theorem op_valid (o : PenOp) : o.isValid = true ↔ Typed o ∧ ∀ gp ∈ o.points, CleanSpot gp := by
  cases o <;> simp only [PenOp.isValid, Typed, PenOp.points, Bool.and_eq_true, decide_eq_true_eq, spot_valid, List.mem_cons, List.not_mem_nil,
    or_false, forall_eq_or_imp, forall_eq]
  · constructor
    · rintro ⟨h, -, h'⟩; exact ⟨h, h'⟩
    · rintro ⟨h, h'⟩; exact ⟨h, by rw [h]; decide, h'⟩
  · constructor
    · rintro ⟨h, -, h'⟩; exact ⟨h, h'⟩
    · rintro ⟨h, h'⟩; exact ⟨h, by rw [h]; decide, h'⟩
  · constructor
    · rintro ⟨⟨⟨h1, h2, h3⟩, h4⟩, -, h5⟩; exact ⟨⟨h1, h2, h4⟩, h5, h3⟩
    · rintro ⟨⟨h1, h2, h4⟩, h5, h3⟩; exact ⟨⟨⟨h1, h2, h3⟩, h4⟩, by rw [h4]; decide, h5⟩
  · constructor
    · rintro ⟨⟨⟨⟨⟨h1, h2, h3⟩, h4⟩, -, h5⟩, h6⟩, -, h7⟩; exact ⟨⟨h1, h2, h4, h6⟩, h5, h7, h3⟩
    · rintro ⟨⟨h1, h2, h4, h6⟩, h5, h7, h3⟩; exact ⟨⟨⟨⟨⟨h1, h2, h3⟩, h4⟩, by rw [h4]; decide, h5⟩, h6⟩, by rw [h6]; decide, h7⟩
  · simp

theorem typed_curve {x y : Point PD} (ly : LC y) : Typed (.curveTo (.fromHandle x .A) (.fromHandle y .B) (.ofPoint y)) := by
  refine ⟨?_, ?_, rfl, rfl⟩ <;> show y.ptype ≠ _ <;> rcases ly with e | e <;> rw [e] <;> decide

theorem typed_opOf {x y : Point PD} (ly : LC y) : Typed (opOf (x, y)) := by
  unfold opOf
  split
  · rename_i h; exact h
  · exact typed_curve ly

theorem typed_tailOps (l : List (Point PD)) : ∀ z, (∀ x ∈ l, LC x) → ∀ o ∈ tailOps z l, Typed o := by
  induction l with
  | nil => intro z _ o ho; cases ho
  | cons x l ih =>
    intro z hl o ho
    cases l with
    | nil =>
      rw [tailOps, List.mem_singleton] at ho
      subst ho
      split
      · rename_i h; exact h
      · exact typed_curve (hl x (List.mem_cons_self ..))
    | cons y l =>
      rw [tailOps, List.mem_cons] at ho
      rcases ho with rfl | ho
      · exact typed_opOf (hl y (List.mem_cons_of_mem _ (List.mem_cons_self ..)))
      · exact ih x (fun w hw => hl w (List.mem_cons_of_mem _ hw)) o ho

/-- **C70**, exactly: each operation made from a contour of at least two points is valid if and only if its coordinates are clean and,
if it is a `MoveTo`, the contour is open; so all are if and only if all coordinates are clean and the contour is open. -/
theorem C70_exact (p q : Point PD) (rest : Contour PD) : ∃ ops, intoPenOperations (p :: q :: rest) = .ok ops ∧
    (∀ o ∈ ops, o.isValid = true ↔ (∀ gp ∈ o.points, CleanSpot gp) ∧ ((∃ gp, o = .moveTo gp) → p.ptype = .move)) ∧
    ((∀ o ∈ ops, o.isValid = true) ↔ p.ptype = .move ∧ ∀ o ∈ ops, ∀ gp ∈ o.points, CleanSpot gp) := by
  have fin : ∀ ops : List PenOp, (p.ptype ≠ .move → ∃ gp, .moveTo gp ∈ ops) →
      (∀ o ∈ ops, o.isValid = true ↔ (∀ gp ∈ o.points, CleanSpot gp) ∧ ((∃ gp, o = .moveTo gp) → p.ptype = .move)) →
      ((∀ o ∈ ops, o.isValid = true) ↔ p.ptype = .move ∧ ∀ o ∈ ops, ∀ gp ∈ o.points, CleanSpot gp) := by
    intro ops h1 h2
    constructor
    · intro h
      refine ⟨?_, fun o ho => ((h2 o ho).1 (h o ho)).1⟩
      by_contra hp
      obtain ⟨gp, hg⟩ := h1 hp
      exact hp (((h2 _ hg).1 (h _ hg)).2 ⟨gp, rfl⟩)
    · intro ⟨hp, h⟩ o ho
      exact (h2 o ho).2 ⟨h o ho, fun _ => hp⟩
  by_cases hp : p.ptype = .move
  · obtain ⟨p', q', rest', hr, hm, hl, -, -⟩ := refigure_open (q := q) (rest := rest) hp
    have key : ∀ o ∈ (if q'.ptype = .line then [] else [.moveTo (.ofPoint p')]) ++ tailOps p' (q' :: rest'), Typed o := by
      intro o ho
      rcases List.mem_append.1 ho with ho | ho
      · split at ho
        · cases ho
        · rw [List.mem_singleton.1 ho]; exact hm
      · exact typed_tailOps _ p' hl o ho
    have h2 : ∀ o ∈ (if q'.ptype = .line then [] else [.moveTo (.ofPoint p')]) ++ tailOps p' (q' :: rest'), o.isValid = true ↔
        (∀ gp ∈ o.points, CleanSpot gp) ∧ ((∃ gp, o = .moveTo gp) → p.ptype = .move) :=
      fun o ho => (op_valid o).trans ⟨fun h => ⟨h.2, fun _ => hp⟩, fun h => ⟨key o ho, h.1⟩⟩
    exact ⟨_, intoPenOperations_open (by simp [isOpen, hp]) hr hm hl, h2, fin _ (fun h => absurd hp h) h2⟩
  · obtain ⟨p', q', rest', hr, hf⟩ := refigure_closed (closed_of p q rest hp)
    have hne : p'.ptype ≠ .move := by rcases hf.lc p' (List.mem_cons_self ..) with e | e <;> rw [e] <;> decide
    have key : ∀ o ∈ midOps p' q' rest' ++ [PenOp.close], Typed o ∧ ∀ gp, o ≠ .moveTo gp := by
      intro o ho
      rcases List.mem_append.1 ho with ho | ho
      · unfold midOps at ho
        rcases List.mem_append.1 ho with ho | ho
        · split at ho
          · cases ho
          · rw [List.mem_singleton.1 ho]
            exact ⟨typed_opOf (hf.lc _ (List.mem_cons_of_mem _ (List.mem_cons_self ..))), fun gp => by unfold opOf; split <;> exact fun h => (nomatch h)⟩
        · obtain ⟨x, hx, rfl⟩ := List.mem_map.1 ho
          refine ⟨typed_opOf (hf.lc _ ?_), fun gp => by unfold opOf; split <;> exact fun h => (nomatch h)⟩
          rcases List.mem_append.1 (List.of_mem_zip hx).2 with h | h
          · exact List.mem_cons_of_mem _ (List.mem_cons_of_mem _ h)
          · rw [List.mem_singleton.1 h]; exact List.mem_cons_self ..
      · rw [List.mem_singleton.1 ho]
        exact ⟨trivial, fun gp h => (nomatch h)⟩
    have h2 : ∀ o ∈ PenOp.moveTo (.ofPoint p') :: (midOps p' q' rest' ++ [PenOp.close]), o.isValid = true ↔
        (∀ gp ∈ o.points, CleanSpot gp) ∧ ((∃ gp, o = .moveTo gp) → p.ptype = .move) := by
      intro o ho
      rcases List.mem_cons.1 ho with rfl | ho
      · exact (op_valid _).trans ⟨fun h => absurd h.1 hne, fun h => absurd (h.2 ⟨_, rfl⟩) hp⟩
      · exact (op_valid o).trans ⟨fun h => ⟨h.2, fun ⟨gp, e⟩ => absurd e ((key o ho).2 gp)⟩, fun h => ⟨(key o ho).1, h.1⟩⟩
    exact ⟨_, intoPenOperations_closed (closed_of p q rest hp) hr hf, h2, fin _ (fun _ => ⟨_, List.mem_cons_self ..⟩) h2⟩

/-! ## Splitting -/

/-- Operations that neither begin nor end a contour are collected. -/
theorem splitLoop_mid (l : List PenOp) (h : ∀ o ∈ l, o ≠ .close ∧ ∀ p, o ≠ .moveTo p) : ∀ (ko : List (List PenOp)) kc rest,
    splitLoop ko kc (l ++ rest) = splitLoop ko (kc ++ l) rest := by
  induction l with
  | nil => intro ko kc rest; simp
  | cons o l ih =>
    intro ko kc rest
    have ho := h o (List.mem_cons_self ..)
    have hs : splitLoop ko kc (o :: (l ++ rest)) = splitLoop ko (kc ++ [o]) (l ++ rest) := by
      cases o with
      | moveTo p => exact absurd rfl (ho.2 p)
      | close => exact absurd rfl ho.1
      | _ => rfl
    rw [List.cons_append, hs, ih fun x hx => h x (List.mem_cons_of_mem _ hx)]
    simp

theorem opOf_mid (x : Point PD × Point PD) : opOf x ≠ .close ∧ ∀ p, opOf x ≠ .moveTo p := by
  unfold opOf
  split <;> exact ⟨fun h => PenOp.noConfusion h, fun p h => PenOp.noConfusion h⟩

theorem tailOps_mid (l : List (Point PD)) : ∀ z, ∀ o ∈ tailOps z l, o ≠ .close ∧ ∀ p, o ≠ .moveTo p := by
  induction l with
  | nil => intro z o ho; cases ho
  | cons x l ih =>
    intro z o ho
    cases l with
    | nil =>
      rw [tailOps, List.mem_singleton] at ho
      subst ho
      split <;> exact ⟨fun h => PenOp.noConfusion h, fun p h => PenOp.noConfusion h⟩
    | cons y l =>
      rw [tailOps, List.mem_cons] at ho
      rcases ho with rfl | ho
      · exact opOf_mid _
      · exact ih x o ho

/-- **C69.** The operations of a contour, if it can be converted, are those of exactly one contour: the list of them is
valid.  If there is more than one, that contour ends its segments where they do. -/
theorem C69_one_contour (c : Contour PD) (ops : List PenOp) (h : intoPenOperations c = .ok ops) :
    ∃ k, splitPenOperations ops = .ok [k] ∧ (1 < ops.length → k.filterMap opEnd = ops.filterMap opEnd) := by
  by_cases h1 : ops.length ≤ 1
  · exact ⟨[], by unfold splitPenOperations; rw [if_pos h1], fun h => absurd h1 (Nat.not_le.2 h)⟩
  · unfold splitPenOperations
    rw [if_neg h1]
    match c with
    | [] => cases h; simp at h1
    | [p] =>
      have : intoPenOperations [p] = (.err (.contourHasBadPointType 0 .offcurve) : R (List PenOp)) := by
        unfold intoPenOperations
        rw [refigure_eq]
        rfl
      rw [this] at h
      cases h
    | p :: q :: rest =>
      by_cases hp : p.ptype = .move
      · obtain ⟨p', q', rest', hr, hm, hl, -, -⟩ := refigure_open (q := q) (rest := rest) hp
        rw [intoPenOperations_open (by simp [isOpen, hp]) hr hm hl] at h
        cases h
        by_cases hq : q'.ptype = .line
        · rw [if_pos hq, List.nil_append]
          have := splitLoop_mid _ (tailOps_mid (q' :: rest') p') [] [] []
          rw [List.append_nil, List.nil_append] at this
          rw [this]
          refine ⟨tailOps p' (q' :: rest'), ?_, fun _ => rfl⟩
          simp only [splitLoop, Out.bind_ok]
          rw [if_neg]
          · rfl
          · cases rest' <;> simp [tailOps]
        · rw [if_neg hq]
          have := splitLoop_mid _ (tailOps_mid (q' :: rest') p') [] [.moveTo (.ofPoint p')] []
          rw [List.append_nil] at this
          simp only [List.singleton_append, splitLoop, List.isEmpty_nil, if_true, this, Out.bind_ok]
          exact ⟨_, rfl, fun _ => rfl⟩
      · obtain ⟨p', q', rest', hr, hf⟩ := refigure_closed (closed_of p q rest hp)
        rw [intoPenOperations_closed (closed_of p q rest hp) hr hf] at h
        cases h
        have hmid : ∀ o ∈ midOps p' q' rest', o ≠ .close ∧ ∀ p, o ≠ .moveTo p := by
          intro o ho
          unfold midOps at ho
          rcases List.mem_append.1 ho with ho | ho
          · split at ho
            · cases ho
            · rw [List.mem_singleton.1 ho]
              exact opOf_mid _
          · obtain ⟨x, -, rfl⟩ := List.mem_map.1 ho
            exact opOf_mid _
        have := splitLoop_mid _ hmid [] [.moveTo (.ofPoint p')] [.close]
        simp only [List.cons_append, splitLoop, List.isEmpty_nil, if_true, this, List.nil_append, Out.bind_ok]
        refine ⟨_, rfl, fun _ => ?_⟩
        simp [opEnd]

/-- A closed contour with clean coordinates. -/
example : ∃ p q r : Point Unit, p.ptype ≠ .move ∧ q.ptype = .curve ∧ ∀ x ∈ [p, q, r], Clean x := by
  refine ⟨Sample.pt .line 0 0, Sample.cv 10 0 10 0 5 5, Sample.pt .line 10 10, by decide, rfl, ?_⟩
  intro x hx
  simp only [List.mem_cons, List.not_mem_nil, or_false] at hx
  rcases hx with rfl | rfl | rfl
  · exact ⟨by constructor <;> decide +kernel, by constructor <;> decide +kernel, nofun, nofun⟩
  · refine ⟨by constructor <;> decide +kernel, by constructor <;> decide +kernel, ?_, ?_⟩ <;>
    · intro u v e
      cases e
      constructor <;> constructor <;> decide +kernel
  · exact ⟨by constructor <;> decide +kernel, by constructor <;> decide +kernel, nofun, nofun⟩

end GP
