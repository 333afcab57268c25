import Verif.Lemmas.Numbers
import Verif.Props.Sample
/-!
# Numbers and points: text, validity, rounding (C50, C52, C54, C55)
-/
open Fl Fl.Text
namespace GP
open Spec
variable {PD : Type}

/-! ## C52 -/

/-- **C52.** Every `f32` written as text is read back, and the number read is the same `f32`
except that negative zero becomes zero.  NaN, infinities and subnormals are included. -/
theorem C52_coordinate (x : F32) :
    ∃ y, IOF.parse (IOF.ofF32 x).text = some y ∧ y.toF32 = x.normZero :=
  ⟨_, IOF.parse_show_eq _, IOF.reread_toF32 _⟩

/-- **C52.** In IEEE terms: the number read back equals the number written (`==`), or both are NaN. -/
theorem C52_numerically_equal (x : F32) :
    ∃ y, IOF.parse (IOF.ofF32 x).text = some y ∧
      ((x.isNaN = true ∧ y.toF32.isNaN = true) ∨ (x.feq y.toF32 = true)) := by
  obtain ⟨y, h1, h2⟩ := C52_coordinate x
  refine ⟨y, h1, ?_⟩
  rw [h2]
  cases x with
  | nan => left; exact ⟨rfl, rfl⟩
  | num s k h =>
    right
    simp [Flt.feq, Flt.normZero]
    by_cases hk : k = 0 <;> simp [hk]

/-- **C52.** Coordinates that are integers are read back as the same integer. -/
theorem C52_integer (i : Int) (h : i32ok i = true) :
    IOF.parse (IOF.text (.int i h)) = some (.int i h) := IOF.parse_int i h

/-- **C52.** Reading plain `f32` text (as `read` does for guideline coordinates) is exact, sign of
zero included. -/
theorem C52_plain (x : F32) : parseFloat b32 (showFloat x) = some x := parseFloat_showFloat b32_p x

/-- The smallest subnormal survives. -/
example : ∃ y, IOF.parse (IOF.ofF32 (.num true 1 (by decide))).text = some y ∧
    y.toF32 = .num true 1 (by decide) := by
  obtain ⟨y, h1, h2⟩ := C52_coordinate (.num true 1 (by decide))
  exact ⟨y, h1, h2⟩

/-! ## C50 -/

/-- **C50.** Every point type that may appear in a file is read back from its text. -/
theorem C50_point_type (t : PointType) (h : t.isValid = true) : PointType.parse t.text = t := by
  cases t <;> first | decide | simp [PointType.isValid] at h

/-- **C50.** The exact extent: a type is read back from its text exactly if it may appear in a
file. -/
theorem C50_point_type_iff (t : PointType) : PointType.parse t.text = t ↔ t.isValid = true := by
  cases t <;> decide

/-- **C50.** Any text other than the four on-curve type names reads as off-curve. -/
theorem C50_point_type_other (s : Str) (h : ∀ t : PointType, t ≠ .offcurve → t.isValid = true → s ≠ t.text) :
    PointType.parse s = .offcurve := by
  unfold PointType.parse
  split
  next e => exact absurd e (h .move (by simp) rfl)
  next =>
    split
    next e => exact absurd e (h .line (by simp) rfl)
    next =>
      split
      next e => exact absurd e (h .qcurve (by simp) rfl)
      next =>
        split
        next e => exact absurd e (h .curve (by simp) rfl)
        next => rfl

example : PointType.parse "cubic".toList = .offcurve :=
  C50_point_type_other _ (by intro t _ _; cases t <;> decide)

/-- **C50.** The handle letter round trips. -/
theorem C50_handle (w : WhichHandle) : WhichHandle.ofChar w.toChar = w := by
  cases w <;> decide

/-- **C50.** A handle that is somewhere stands for a curve, one that is nowhere for a line. -/
theorem C50_of_handle (h : Handle) :
    (PointType.ofHandle h = .curve ↔ ∃ x y, h = .at x y) ∧ (PointType.ofHandle h = .line ↔ h = .colocated) := by
  cases h <;> simp [PointType.ofHandle]

/-- **C50.** The letters of the handles: capital or small, of the usual or of the full width; every other
character names no handle, and NUL is written for none. -/
theorem C50_letters (w : WhichHandle) (c : Char) :
    (w.toChar = 'A' ↔ w = .A) ∧ (w.toChar = 'B' ↔ w = .B) ∧ (w.toChar.toNat = 0 ↔ w = .neither) ∧
      (WhichHandle.ofChar c = .A ↔ c ∈ "AaＡａ".toList) ∧ (WhichHandle.ofChar c = .B ↔ c ∈ "BbＢｂ".toList) := by
  have ha : "AaＡａ".toList = ['A', 'a', 'Ａ', 'ａ'] := by decide
  have hb : "BbＢｂ".toList = ['B', 'b', 'Ｂ', 'ｂ'] := by decide
  refine ⟨by cases w <;> decide, by cases w <;> decide, by cases w <;> decide, ?_, ?_⟩
  · rw [ha]
    unfold WhichHandle.ofChar
    by_cases h1 : c = 'A' ∨ c = 'a' ∨ c = 'Ａ' ∨ c = 'ａ'
    · rw [if_pos h1]
      simpa using h1
    · rw [if_neg h1]
      refine iff_of_false ?_ (by simpa using h1)
      split <;> exact fun h => (nomatch h)
  · rw [hb]
    unfold WhichHandle.ofChar
    by_cases h1 : c = 'A' ∨ c = 'a' ∨ c = 'Ａ' ∨ c = 'ａ'
    · rw [if_pos h1]
      refine iff_of_false (fun h => (nomatch h)) ?_
      rcases h1 with rfl | rfl | rfl | rfl <;> decide
    · rw [if_neg h1]
      by_cases h2 : c = 'B' ∨ c = 'b' ∨ c = 'Ｂ' ∨ c = 'ｂ'
      · rw [if_pos h2]
        simpa using h2
      · rw [if_neg h2]
        exact iff_of_false (fun h => (nomatch h)) (by simpa using h2)

/-- **C50.** The opposite of a handle is another handle, twice is the identity; both handles are valid, and
only they. -/
theorem C50_opposite (w : WhichHandle) :
    w.opposite.opposite = w ∧ (w.opposite = w ↔ w = .neither) ∧ w.opposite.isValid = w.isValid ∧ (w.isValid = true ↔ w ≠ .neither) := by
  cases w <;> decide

/-! ## C54 -/

/-- **C54, exact condition.** What `Point::is_valid` checks: the `x` of a position is not NaN and the
`y` is not subnormal, and the same for each explicit handle. -/
theorem C54_point_iff (validData : PD → Bool) (p : Point PD) :
    p.isValid validData = true ↔
      (∀ d, p.data = some d → validData d = true) ∧ p.ptype ≠ .undefined ∧
      p.x.isNaN = false ∧ p.y.isSubnormal = false ∧
      (∀ x y, p.a = .at x y ∨ p.b = .at x y → x.isNaN = false ∧ y.isSubnormal = false) := by
  unfold Point.isValid
  rcases p with ⟨x, y, a, b, name, t, sm, d⟩
  cases d <;> cases a <;> cases b <;>
    simp [Handle.validCoords, and_assoc, or_imp, forall_and]
  all_goals grind

/-- **C54 is false of the code.** A point whose `y` is NaN (and a point whose `x` is subnormal) is
reported valid. -/
theorem C54_false :
    ∃ p q : Point Unit, (p.isValid (fun _ => true) = true ∧ ¬ Sound p.y) ∧
      (q.isValid (fun _ => true) = true ∧ ¬ Sound q.x) :=
  ⟨{ y := .nan, ptype := .line }, { x := .num false 1 (by decide), ptype := .line },
    ⟨by decide, by simp [Sound, Flt.isNaN]⟩, ⟨by decide, by simp [Sound, Flt.isNaN]; decide⟩⟩

/-- **C54, the part that holds.** A valid point has no NaN in `x` and no subnormal in `y`; and a
point all of whose coordinates are sound, whose type is defined and whose data is valid is never
rejected.  Missing: NaN in `y` and subnormal `x` are not rejected. -/
theorem C54_partial (validData : PD → Bool) (p : Point PD) :
    (p.isValid validData = true →
      p.ptype ≠ .undefined ∧ p.x.isNaN = false ∧ p.y.isSubnormal = false) ∧
    (Sound p.x → Sound p.y → HandleSound p.a → HandleSound p.b → p.ptype ≠ .undefined →
      (∀ d, p.data = some d → validData d = true) → p.isValid validData = true) := by
  rw [C54_point_iff]
  refine ⟨fun h => ⟨h.2.1, h.2.2.1, h.2.2.2.1⟩, fun hx hy ha hb ht hd => ⟨hd, ht, hx.1, hy.2, ?_⟩⟩
  rintro x y (h | h)
  · rw [h] at ha; exact ⟨ha.1.1, ha.2.2⟩
  · rw [h] at hb; exact ⟨hb.1.1, hb.2.2⟩

/-- **C54 for file points** holds: a file point is valid exactly if its type is defined and its
coordinates, where they are floats, are sound. -/
theorem C54_file_point_iff (p : GlifPoint) :
    p.isValid = true ↔ p.ptype ≠ .undefined ∧
      (∀ f, p.x = .float f → Sound f) ∧ (∀ f, p.y = .float f → Sound f) := by
  unfold GlifPoint.isValid
  rcases p with ⟨x, y, sm, name, t⟩
  cases x <;> cases y <;> simp [IOF.floatPart, Sound, and_comm, and_assoc]

example : (Sample.cv 1 2 3 4 5 6).isValid (fun _ => true) = true := by decide +kernel
example : (Sample.gp .line 3 4).isValid = true := by decide +kernel

/-! ## C55 -/

/-- **C55.** Rounding one coordinate gives the nearest integer, halves away from zero, keeping the
sign; NaN and infinities stay. -/
theorem C55_rounds (x : F32) : RoundsTo x x.roundInt := roundInt_spec x

/-- **C55.** Rounding an outline rounds the position of every point and changes nothing else; the
numbers of contours and points stay. -/
theorem C55_local (o : Outline PD) :
    (roundOutline o).length = o.length ∧
    ∀ (i : Nat) (c : Contour PD), o[i]? = some c → ∃ c' : Contour PD, (roundOutline o)[i]? = some c' ∧
      c'.length = c.length ∧
      ∀ (j : Nat) (p : Point PD), c[j]? = some p → ∃ q : Point PD, c'[j]? = some q ∧
        RoundsTo p.x q.x ∧ RoundsTo p.y q.y ∧
        q.a = p.a ∧ q.b = p.b ∧ q.name = p.name ∧ q.ptype = p.ptype ∧ q.smooth = p.smooth ∧
        q.data = p.data := by
  refine ⟨by simp [roundOutline], ?_⟩
  intro i c hc
  refine ⟨roundContour c, by simp [roundOutline, hc], by simp [roundContour], ?_⟩
  intro j p hp
  exact ⟨p.roundToInt, by simp [roundContour, hp], roundInt_spec _, roundInt_spec _,
    rfl, rfl, rfl, rfl, rfl, rfl⟩

/-- **C55.** Rounding twice is rounding once. -/
theorem C55_idempotent (o : Outline PD) : roundOutline (roundOutline o) = roundOutline o := by
  simp only [roundOutline, List.map_map]
  apply List.map_congr_left
  intro c _
  simp only [Function.comp, roundContour, List.map_map]
  apply List.map_congr_left
  intro p _
  simp only [Function.comp, Point.roundToInt, roundInt_idem]

theorem roundsToInt (x : F32) : RoundsToInt x x.roundInt.toI32 := by
  cases x with
  | nan => rfl
  | num s k h =>
    rcases roundInt_spec (.num s k h) with ⟨hk, e⟩ | ⟨hk, M, j, hj, hji, e, hv, h1, h2⟩
    · left
      refine ⟨hk, ?_⟩
      rw [e, Flt.toI32, if_pos hk, if_pos hk]
    · right
      refine ⟨hk, M, h1, h2, ?_⟩
      have hd : b32.val j / 2 ^ b32.u = M := by
        rw [hv]
        exact Nat.mul_div_cancel _ (by decide)
      rw [e, Flt.toI32, if_neg hji, if_neg hji, hd]

/-- **C55.** A point of a file gets whole numbers for coordinates and is otherwise left alone. -/
theorem C55_file (p : GlifPoint) :
    (∃ n h, p.roundToInt.x = .int n h ∧ RoundsToInt p.x.toF32 n) ∧ (∃ n h, p.roundToInt.y = .int n h ∧ RoundsToInt p.y.toF32 n) ∧
      p.roundToInt.ptype = p.ptype ∧ p.roundToInt.name = p.name ∧ p.roundToInt.smooth = p.smooth :=
  ⟨⟨_, _, rfl, roundsToInt _⟩, ⟨_, _, rfl, roundsToInt _⟩, rfl, rfl, rfl⟩

/-- 2.5 rounds to 3, -2.5 to -3, and a handle is left alone. -/
example :
    let half : F32 := Flt.ofFrac b32 false 5 2
    let p : Point Unit := { x := half, y := half.neg, a := .at half half, ptype := .curve }
    roundOutline [[p]] = [[{ p with x := Sample.f 3, y := Sample.f (-3) }]] := by decide +kernel

end GP
