import Verif.Lemmas.Mfek
import Verif.Lemmas.Matrix
import Mathlib.Data.List.Forall2
/-!
# Points of the editor (C51, C62), hyperbezier contours (C63) and the names of joins and caps (C50)
-/
open Fl
namespace GP
open Spec

variable {PD : Type}

/-! ## C51 -/

/-- A point without its position and its handles. -/
def Spec.apart : MPoint PD → MPoint PD
  | .cubic p => .cubic { p with x := default, y := default, a := .colocated, b := .colocated }
  | .quad p => .quad { p with x := default, y := default, a := .colocated }
  | .hyper p => .hyper { p with x := default, y := default, a := .colocated, b := .colocated }

/-- Numbers of at most `2^24` steps of a grid exist as `f32`. -/
theorem grid_exists (s : Nat) (hs : s ≤ 250) (i : Int) (hi : i.natAbs ≤ 2 ^ 24) : ∃ z : F32, Exact z (i * 2 ^ s) := by
  obtain ⟨k, hk⟩ := Fmt.exists_val b32 b32_p s i.natAbs hi
  have hkl : k < b32.inf := by
    apply (Fmt.val_lt_iff b32 b32_p).1
    rw [hk, b32_val_inf]
    calc i.natAbs * 2 ^ s ≤ 2 ^ 24 * 2 ^ 250 := Nat.mul_le_mul hi (Nat.pow_le_pow_right (by decide) hs)
      _ = 2 ^ (24 + 250) := (Nat.pow_add ..).symm
      _ < 2 ^ 277 := Nat.pow_lt_pow_right (by decide) (by decide)
  refine ⟨.num (decide (i < 0)) k (Nat.le_of_lt hkl), by simp [Flt.isFinite, hkl], ?_⟩
  simp only [Flt.sval]
  rw [hk]
  by_cases h : i < 0
  · simp only [h, decide_true, if_true]
    push_cast
    rw [← Int.neg_mul]
    congr 1
    omega
  · simp only [h, decide_false, Bool.false_eq_true, if_false]
    push_cast
    congr 1
    omega

theorem exact_neg {x : F32} {v : Int} (h : Exact x v) : Exact x.neg (-v) := by
  obtain ⟨h1, h2⟩ := h
  cases x with
  | nan => exact nomatch h1
  | num s k hk =>
    refine ⟨h1, ?_⟩
    unfold Flt.sval at h2
    subst h2
    cases s <;> simp [Flt.neg, Flt.sval]

/-- Subtraction on a grid. -/
theorem grid_sub (s : Nat) (hs : s ≤ 250) {x y : F32} {i j : Int} (hx : Exact x (i * 2 ^ s)) (hy : Exact y (j * 2 ^ s))
    (hij : (i - j).natAbs ≤ 2 ^ 24) : Exact (x.sub y) ((i - j) * 2 ^ s) := by
  obtain ⟨z, hz⟩ := grid_exists s hs (i - j) hij
  have e : i * 2 ^ s + -(j * 2 ^ s) = (i - j) * 2 ^ s := by rw [Int.sub_mul]; rfl
  have := add_exact b32_p hx (exact_neg hy) (e ▸ hz)
  rw [e] at this
  exact this

/-- A handle on the grid moves along. -/
theorem moveBack_grid (s : Nat) (hs : s ≤ 250) {x y x' y' : F32} {ix iy jx jy : Int} (hx : OnGrid s x ix) (hy : OnGrid s y iy)
    (hx' : OnGrid s x' jx) (hy' : OnGrid s y' jy) (h : Handle) (hh : GridHandle s h) :
    HandleMoved ((jx - ix) * 2 ^ s) ((jy - iy) * 2 ^ s) h (h.moveBack (x.sub x') (y.sub y')) := by
  have one : ∀ {x x' a : F32} {i j k : Int}, OnGrid s x i → OnGrid s x' j → OnGrid s a k →
      Exact (a.sub (x.sub x')) (k * 2 ^ s + (j - i) * 2 ^ s) := by
    rintro x x' a i j k ⟨h1, b1⟩ ⟨h2, b2⟩ ⟨h3, b3⟩
    have := grid_sub s hs h3 (grid_sub s hs h1 h2 (by omega)) (by omega)
    rw [← Int.add_mul]
    rwa [show k + (j - i) = k - (i - j) by omega]
  cases h with
  | colocated => trivial
  | «at» a b =>
    obtain ⟨⟨k, hk⟩, l, hl⟩ := hh
    exact ⟨⟨k * 2 ^ s, hk.1, one hx hx' hk⟩, l * 2 ^ s, hl.1, one hy hy' hl⟩

/-- **C51**, as far as it holds: for coordinates on a grid, setting the position of a point moves each
explicit handle by the same displacement.  The grid has steps of any power of two up to `2^101`, and `2^22` of
them to each side of zero; that covers whole numbers up to four millions, and multiples of 1/1024 up to 4096. -/
theorem C51_partial (q : MPoint PD) (x y : F32) (s : Nat) (hs : s ≤ 250) (ix iy jx jy : Int)
    (hx : OnGrid s q.getPosition.1 ix) (hy : OnGrid s q.getPosition.2 iy) (hx' : OnGrid s x jx) (hy' : OnGrid s y jy)
    (hh : ∀ h ∈ handlesOf q, GridHandle s h) :
    List.Forall₂ (HandleMoved ((jx - ix) * 2 ^ s) ((jy - iy) * 2 ^ s)) (handlesOf q) (handlesOf (q.setPosition x y)) := by
  have key := fun h hm => moveBack_grid s hs hx hy hx' hy' h (hh h hm)
  cases q with
  | cubic p => exact .cons (key _ (by simp [handlesOf])) (.cons (key _ (by simp [handlesOf])) .nil)
  | quad p => exact .cons (key _ (by simp [handlesOf])) .nil
  | hyper p => exact .cons (key _ (by simp [handlesOf])) (.cons (key _ (by simp [handlesOf])) .nil)

/-- A whole number is on the grid of step 1. -/
theorem onGrid_int (i : Int) (h : i.natAbs ≤ 2 ^ 22) : OnGrid 149 (Flt.ofInt b32 i) i := by
  obtain ⟨z, hz⟩ := grid_exists 149 (by decide) i (by omega)
  exact ⟨ofInt_exact b32_p hz, h⟩

example (q : MPoint Unit) (hq : q = .cubic { x := Flt.ofInt b32 3, y := Flt.ofInt b32 4, a := .at (Flt.ofInt b32 5) (Flt.ofInt b32 (-7)) }) :
    List.Forall₂ (HandleMoved ((10 - 3) * 2 ^ 149) ((0 - 4) * 2 ^ 149)) (handlesOf q)
      (handlesOf (q.setPosition (Flt.ofInt b32 10) (Flt.ofInt b32 0))) := by
  subst hq
  refine C51_partial _ _ _ 149 (by decide) 3 4 10 0 (onGrid_int 3 (by decide)) (onGrid_int 4 (by decide))
    (onGrid_int 10 (by decide)) (onGrid_int 0 (by decide)) fun h hm => ?_
  simp only [handlesOf, List.mem_cons, List.not_mem_nil, or_false] at hm
  rcases hm with rfl | rfl
  · exact ⟨⟨5, onGrid_int 5 (by decide)⟩, -7, onGrid_int (-7) (by decide)⟩
  · trivial

/-- **C51.** For all coordinates, the point gets its position, implicit handles stay implicit, explicit ones
explicit, and nothing else changes. -/
theorem C51_rest (q : MPoint PD) (x y : F32) :
    (q.setPosition x y).getPosition = (x, y) ∧ apart (q.setPosition x y) = apart q ∧
    List.Forall₂ (fun h h' => h = .colocated ↔ h' = .colocated) (handlesOf q) (handlesOf (q.setPosition x y)) := by
  have key : ∀ (h : Handle) (a b : F32), h = .colocated ↔ h.moveBack a b = .colocated := by
    intro h a b
    cases h <;> simp [Handle.moveBack]
  cases q with
  | cubic p => exact ⟨rfl, rfl, .cons (key ..) (.cons (key ..) .nil)⟩
  | quad p => exact ⟨rfl, rfl, .cons (key ..) .nil⟩
  | hyper p => exact ⟨rfl, rfl, .cons (key ..) (.cons (key ..) .nil)⟩

/-- Setting the position without the handles leaves the handles where they are. -/
theorem C51_no_handles (q : MPoint PD) (x y : F32) :
    (q.setPositionNoHandles x y).getPosition = (x, y) ∧ apart (q.setPositionNoHandles x y) = apart q ∧
    handlesOf (q.setPositionNoHandles x y) = handlesOf q := by
  cases q <;> exact ⟨rfl, rfl, rfl⟩

/-- **C51 is false of the code** for all coordinates: a handle at 1 does not follow when its point moves from
0 to 2^24, because the sum is rounded. -/
theorem C51_false : ∃ (q : MPoint Unit) (x y : F32) (dx dy : Int),
    (∃ v w, Exact q.getPosition.1 v ∧ Exact q.getPosition.2 w ∧ Exact x (v + dx) ∧ Exact y (w + dy)) ∧
    ¬ List.Forall₂ (HandleMoved dx dy) (handlesOf q) (handlesOf (q.setPosition x y)) := by
  refine ⟨.quad { x := Flt.ofInt b32 0, y := Flt.ofInt b32 0, a := .at (Flt.ofInt b32 1) (Flt.ofInt b32 0) },
    Flt.ofInt b32 16777216, Flt.ofInt b32 0, 16777216 * 2 ^ 149, 0, ⟨0, 0, ?_⟩, ?_⟩
  · unfold Exact
    decide +kernel
  · intro hf
    have e1 : (Flt.ofInt b32 1).sval = 2 ^ 149 := by decide +kernel
    have e2 : ((Flt.ofInt b32 1).sub ((Flt.ofInt b32 0).sub (Flt.ofInt b32 16777216))).sval = 16777216 * 2 ^ 149 := by decide +kernel
    obtain ⟨⟨⟨v, h1, h2⟩, _⟩, _⟩ := List.forall₂_cons.1 hf
    have h1 := e1.symm.trans h1.2
    have h2 := e2.symm.trans h2.2
    rw [← h1] at h2
    revert h2
    decide +kernel

/-! ## C62 -/

/-- **C62.** A handle that a point has can be read back after setting it, the other one is left alone, and
setting a handle that a point does not have does nothing. -/
theorem C62_set_get (q : MPoint PD) (wh : WhichHandle) (h : Handle) :
    (∀ o, (q.setHandle wh h).getHandle o = if o = wh then (q.getHandle wh).map (fun _ => h) else q.getHandle o) ∧
    (q.getHandle wh = none → q.setHandle wh h = q) ∧ (q.setHandle wh h).getPosition = q.getPosition ∧
    apart (q.setHandle wh h) = apart q := by
  refine ⟨fun o => ?_, fun hn => ?_, ?_, ?_⟩
  · cases q <;> cases wh <;> cases o <;> rfl
  · cases q <;> cases wh <;> first | rfl | exact nomatch hn
  · cases q <;> cases wh <;> rfl
  · cases q <;> cases wh <;> rfl

/-- The handles in `handlesOf` are those that can be asked for. -/
theorem C62_handles (q : MPoint PD) : [WhichHandle.A, .B, .neither].filterMap q.getHandle = handlesOf q := by
  cases q <;> rfl

/-- **C62.** Positions of handles: a position set is the position read, a colocated handle has none. -/
theorem C62_position (q : MPoint PD) (wh : WhichHandle) (x y : F32) :
    (q.setHandlePosition wh x y).getHandlePosition wh = (q.getHandle wh).map (fun _ => (x, y)) ∧
    (q.colocateHandle wh).getHandlePosition wh = none ∧
    (∀ o, o ≠ wh → (q.setHandlePosition wh x y).getHandlePosition o = q.getHandlePosition o ∧
      (q.colocateHandle wh).getHandlePosition o = q.getHandlePosition o) := by
  refine ⟨?_, ?_, fun o ho => ⟨?_, ?_⟩⟩
  · cases q <;> cases wh <;> rfl
  · cases q <;> cases wh <;> rfl
  · cases q <;> cases wh <;> cases o <;> first | rfl | exact absurd rfl ho
  · cases q <;> cases wh <;> cases o <;> first | rfl | exact absurd rfl ho

/-- **C62**, as far as it holds: `has_handle` is right for the handles A and B. -/
theorem C62_has_partial (q : MPoint PD) (wh : WhichHandle) (h : wh ≠ .neither) : q.hasHandle wh = (q.getHandle wh).isSome := by
  cases q <;> cases wh <;> first | rfl | exact absurd rfl h

/-- **C62 is false of the code**: cubic and hyperbezier points claim to have the handle "neither". -/
theorem C62_false (p : Point PD) (r : HyperPoint PD) :
    ((MPoint.cubic p).hasHandle .neither = true ∧ (MPoint.cubic p).getHandle .neither = none) ∧
    (MPoint.hyper r).hasHandle .neither = true ∧ (MPoint.hyper r).getHandle .neither = none := ⟨⟨rfl, rfl⟩, rfl, rfl⟩

/-! ## C63 -/

/-- **C63.** The point after the last of a closed hyperbezier contour of at least two points is the first,
otherwise there is none. -/
theorem C63_next (c : HyperInner PD) (i : Nat) (hi : i < c.points.length) :
    (c.isOpen = false → 1 < c.points.length → c.nextPoint i = c.points[(i + 1) % c.points.length]?) ∧
    (c.isOpen = true → c.nextPoint i = c.points[i + 1]?) ∧ (c.points.length = 1 → c.nextPoint i = none) := by
  refine ⟨fun ho hl => ?_, fun ho => ?_, fun hl => ?_⟩
  · unfold HyperInner.nextPoint
    by_cases h : i + 1 = c.points.length
    · rw [if_pos ⟨h, ho, hl⟩, h, Nat.mod_self]
    · rw [if_neg (fun k => h k.1), Nat.mod_eq_of_lt (by omega)]
  · unfold HyperInner.nextPoint
    rw [if_neg (fun k => by rw [ho] at k; exact nomatch k.2.1)]
  · unfold HyperInner.nextPoint
    rw [if_neg (fun k => by omega), List.getElem?_eq_none (by omega)]

example : (⟨[{ kind := .line }, {}, {}], false⟩ : HyperInner Unit).nextPoint 2 = some { kind := .line } :=
  ((C63_next (⟨[{ kind := .line }, {}, {}], false⟩ : HyperInner Unit) 2 (by decide)).1 rfl (by decide))

/-- Beyond the end there is no next point. -/
theorem C63_beyond (c : HyperInner PD) (i : Nat) (hi : c.points.length ≤ i) : c.nextPoint i = none := by
  unfold HyperInner.nextPoint
  rw [if_neg (fun k => by omega), List.getElem?_eq_none (by omega)]

/-! ## C50 -/

/-- **C50.** Joins parse back from their names, and from nothing else. -/
theorem C50_join (s : Str) (j : JoinType) : JoinType.parse s = some j ↔ s = j.text := by
  unfold JoinType.parse
  constructor
  · intro h
    split at h
    · next e => cases h; exact e
    · split at h
      · next e => cases h; exact e
      · split at h
        · next e => cases h; exact e
        · split at h
          · next e => cases h; exact e
          · exact nomatch h
  · rintro rfl
    cases j <;> decide

/-- **C50.** Interpolations parse back from their names, and from nothing else. -/
theorem C50_interpolation (s : Str) (j : InterpolationType) : InterpolationType.parse s = some j ↔ s = j.text := by
  unfold InterpolationType.parse
  constructor
  · intro h
    split at h
    · next e => cases h; exact e
    · split at h
      · next e => cases h; exact e
      · exact nomatch h
  · rintro rfl
    cases j <;> decide

/-- **C50.** Caps parse back from their names; only the custom cap has others, the names that end in `.glif`. -/
theorem C50_cap (s : Str) (j : CapType) :
    CapType.parse s = some j ↔ s = j.text ∨ (j = .custom ∧ ∃ t, s = t ++ ".glif".toList) := by
  unfold CapType.parse
  constructor
  · intro h
    split at h
    · next e => cases h; exact .inl e
    · split at h
      · next e => cases h; exact .inl e
      · split at h
        · next e => cases h; exact .inl e
        · split at h
          · next e => cases h; exact .inl e
          · split at h
            · next e =>
              cases h
              obtain ⟨t, ht⟩ := List.isSuffixOf_iff_suffix.1 e
              exact .inr ⟨rfl, t, ht.symm⟩
            · exact nomatch h
  · rintro (rfl | ⟨rfl, t, rfl⟩)
    · cases j <;> decide
    · have hs : ".glif".toList.isSuffixOf (t ++ ".glif".toList) = true := List.isSuffixOf_iff_suffix.2 ⟨t, rfl⟩
      have hne : ∀ u : Str, u.getLast? ≠ some 'f' → t ++ ".glif".toList ≠ u := by
        rintro u hu rfl
        exact hu (by rw [List.getLast?_append]; rfl)
      rw [if_neg (hne _ (by decide)), if_neg (hne _ (by decide)), if_neg (hne _ (by decide)), if_neg (hne _ (by decide)), if_pos hs]

/-- The file name of a custom cap is not kept: writing gives `custom` for all of them. -/
theorem C50_custom_lost (t : Str) : ∃ c, CapType.parse (t ++ ".glif".toList) = some c ∧ c.text = "custom".toList :=
  ⟨.custom, (C50_cap _ _).2 (.inr ⟨rfl, t, rfl⟩), rfl⟩

end GP
