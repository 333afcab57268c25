import Verif.Lemmas.Accuracy
import Verif.Lemmas.Mfek
import Verif.Spec.Skia
import Verif.Props.Matrix
import Mathlib.Tactic.LinearCombination
/-!
# How exact the geometry is (C91–C93)
-/
open Fl
namespace GP
open Spec
variable {PD : Type}

/-! ## C91 -/

theorem image_app32 {A : Affine} {x y : F32} (hA : FiniteMap A) (hx : x.isFinite = true) (hy : y.isFinite = true)
    (h : Fitting A x y) : Image A x y (A.app32 x y).1 (A.app32 x y).2 :=
  ⟨line_within hA.1 hA.2.2.1 hA.2.2.2.2.1 hx hy h.1, line_within hA.2.1 hA.2.2.2.1 hA.2.2.2.2.2 hx hy h.2⟩

theorem image_handle {A : Affine} {h : Handle} (hA : FiniteMap A) (hf : FiniteHandle h) (hh : FittingHandle A h) :
    HandleImage A h (h.applyMatrix A) := by
  cases h with
  | «at» x y => exact image_app32 hA hf.1 hf.2 hh
  | colocated => trivial

/-- **C91.** A point to which a matrix is applied, and each of its handles, comes to lie where the exact map puts
it, within `2^-24` of the exact coordinate, plus `2^-50` of the numbers that are added up, plus `2^-149`. -/
theorem C91_accurate (A : Affine) (p : Point PD) (hA : FiniteMap A) (hp : FinitePoint p)
    (h : Fitting A p.x p.y) (ha : FittingHandle A p.a) (hb : FittingHandle A p.b) :
    Image A p.x p.y (p.applyMatrix A).x (p.applyMatrix A).y ∧
      HandleImage A p.a (p.applyMatrix A).a ∧ HandleImage A p.b (p.applyMatrix A).b :=
  ⟨image_app32 hA hp.1 hp.2.1 h, image_handle hA hp.2.2.1 ha, image_handle hA hp.2.2.2 hb⟩

theorem abs_line_le (c d e : F64) (x y : F32) : |line c d e x y| ≤ lineSize c d e x y := by
  unfold line lineSize
  have h1 := abs_add_le (c.toRat * x.toRat + d.toRat * y.toRat) e.toRat
  have h2 := abs_add_le (c.toRat * x.toRat) (d.toRat * y.toRat)
  linarith

/-- In the sizes of fonts: if the numbers added up are at most `2^17` together, the image is off by at most 1/100
unit. -/
theorem C91_fonts (A : Affine) (x y x' y' : F32) (h : Image A x y x' y')
    (h1 : lineSize A.a A.c A.e x y ≤ 2 ^ 17) (h2 : lineSize A.b A.d A.f x y ≤ 2 ^ 17) :
    Near x' (line A.a A.c A.e x y) (1 / 100) ∧ Near y' (line A.b A.d A.f x y) (1 / 100) := by
  have key : ∀ c d e, lineSize c d e x y ≤ 2 ^ 17 → lineError c d e x y ≤ 1 / 100 := by
    intro c d e hs
    have := abs_line_le c d e x y
    have t : (1 : ℚ) / 2 ^ 149 ≤ 1 / 2 ^ 20 := by norm_num
    unfold lineError
    norm_num at hs t ⊢
    linarith
  exact ⟨⟨h.1.1, h.1.2.trans (key _ _ _ h1)⟩, ⟨h.2.1, h.2.2.trans (key _ _ _ h2)⟩⟩

/-- The bound cannot be met without the rounding to `f32`: a point moved from 2^24 by 1 stays where it is. -/
theorem C91_needed : ∃ (A : Affine) (p : Point Unit), FiniteMap A ∧ FinitePoint p ∧ Fitting A p.x p.y ∧
    ¬ Near (p.applyMatrix A).x (line A.a A.c A.e p.x p.y) (lineSize A.a A.c A.e p.x p.y / 2 ^ 50 + 1 / 2 ^ 149) := by
  have v1 : (Flt.ofInt b64 1).toRat = 1 := by
    rw [(val_int64 (i := 1) (by decide)).2]; norm_num
  have v0 : (Flt.zero : F64).toRat = 0 := by simp [Flt.zero, toRat_num, Fmt.val_zero]
  have w0 : (Flt.zero : F32).toRat = 0 := by simp [Flt.zero, toRat_num, Fmt.val_zero]
  have w1 : (Flt.ofInt b32 16777216).toRat = 16777216 := by
    rw [(val_int32 (i := 16777216) (by decide)).2]; norm_num
  refine ⟨{ Affine.identity with e := Flt.ofInt b64 1 }, { x := Flt.ofInt b32 16777216, y := Flt.zero, ptype := .line },
    ⟨by decide +kernel, by decide +kernel, by decide +kernel, by decide +kernel, by decide +kernel, by decide +kernel⟩,
    ⟨by decide +kernel, by decide +kernel, trivial, trivial⟩, ⟨?_, ?_⟩, ?_⟩
  · simp only [lineSize, Affine.identity, v1, v0, w1, w0]
    norm_num
  · simp only [lineSize, Affine.identity, v1, v0, w1, w0]
    norm_num
  · intro h
    have h2 := h.2
    rw [show (Point.applyMatrix ({ x := Flt.ofInt b32 16777216, y := Flt.zero, ptype := .line } : Point Unit)
      { Affine.identity with e := Flt.ofInt b64 1 }).x = Flt.ofInt b32 16777216 by decide +kernel] at h2
    simp only [line, lineSize, Affine.identity, v1, v0, w1, w0] at h2
    norm_num at h2

/-- A point with a handle and a matrix that mirrors, slants and moves it meet the hypotheses of `C91_accurate` and
of `C91_fonts`. -/
example : ∃ A : Affine, A ≠ Affine.identity ∧ FiniteMap A ∧ FinitePoint matrixSample ∧ Fitting A matrixSample.x matrixSample.y ∧
    FittingHandle A matrixSample.a ∧ FittingHandle A matrixSample.b ∧
    lineSize A.a A.c A.e matrixSample.x matrixSample.y ≤ 2 ^ 17 ∧ lineSize A.b A.d A.f matrixSample.x matrixSample.y ≤ 2 ^ 17 := by
  have v : ∀ i : Int, i.natAbs ≤ 100 → (Flt.ofInt b64 i).toRat = i := fun i hi =>
    (val_int64 (i := i) (by omega)).2
  have w : ∀ i : Int, i.natAbs ≤ 100 → (Flt.ofInt b32 i).toRat = i := fun i hi =>
    (val_int32 (i := i) (by omega)).2
  refine ⟨⟨Flt.ofInt b64 (-1), Flt.ofInt b64 0, Flt.ofInt b64 2, Flt.ofInt b64 1, Flt.ofInt b64 20, Flt.ofInt b64 30⟩, by decide +kernel,
    ⟨by decide +kernel, by decide +kernel, by decide +kernel, by decide +kernel, by decide +kernel, by decide +kernel⟩,
    ⟨by decide +kernel, by decide +kernel, ⟨by decide +kernel, by decide +kernel⟩, trivial⟩, ⟨?_, ?_⟩, ⟨?_, ?_⟩, trivial, ?_, ?_⟩ <;>
  · simp only [lineSize, matrixSample]
    rw [v _ (by decide), v _ (by decide), v _ (by decide), w _ (by decide), w _ (by decide)]
    norm_num

/-! ## C92 -/

theorem moveBack_within {h : Handle} {p q x y : F32} (hp : p.isFinite = true) (hq : q.isFinite = true)
    (hx : x.isFinite = true) (hy : y.isFinite = true)
    (h1 : |x.toRat - p.toRat| ≤ 2 ^ 125) (h2 : |y.toRat - q.toRat| ≤ 2 ^ 125)
    (hr : RoomFor (x.toRat - p.toRat) (y.toRat - q.toRat) h) :
    HandleMovedFor (x.toRat - p.toRat) (y.toRat - q.toRat) h (h.moveBack (p.sub x) (q.sub y)) := by
  cases h with
  | «at» a b => exact ⟨move_within hr.1 hp hx h1 hr.2.2.1, move_within hr.2.1 hq hy h2 hr.2.2.2⟩
  | colocated => trivial

/-- **C92.** When a point of the editor is moved, each of its explicit handles moves by the same distance, within
`2^-24` of its new coordinate and twice the distance. -/
theorem C92_accurate (q : MPoint PD) (x y : F32)
    (hf : q.getPosition.1.isFinite = true ∧ q.getPosition.2.isFinite = true) (hx : x.isFinite = true) (hy : y.isFinite = true)
    (h1 : |x.toRat - q.getPosition.1.toRat| ≤ 2 ^ 125) (h2 : |y.toRat - q.getPosition.2.toRat| ≤ 2 ^ 125)
    (hr : ∀ h ∈ handlesOf q, RoomFor (x.toRat - q.getPosition.1.toRat) (y.toRat - q.getPosition.2.toRat) h) :
    List.Forall₂ (HandleMovedFor (x.toRat - q.getPosition.1.toRat) (y.toRat - q.getPosition.2.toRat))
      (handlesOf q) (handlesOf (q.setPosition x y)) := by
  have key := fun h hm => moveBack_within (h := h) hf.1 hf.2 hx hy h1 h2 (hr h hm)
  cases q with
  | cubic p => exact .cons (key _ (by simp [handlesOf])) (.cons (key _ (by simp [handlesOf])) .nil)
  | quad p => exact .cons (key _ (by simp [handlesOf])) .nil
  | hyper p => exact .cons (key _ (by simp [handlesOf])) (.cons (key _ (by simp [handlesOf])) .nil)

/-- A point with one explicit handle. -/
def moveSample : MPoint Unit :=
  .cubic { x := Flt.ofInt b32 3, y := Flt.ofInt b32 4, a := .at (Flt.ofInt b32 5) (Flt.ofInt b32 (-7)), ptype := .curve }

/-- The point at (3, 4), moved to (10, 0). -/
example : List.Forall₂ (HandleMovedFor 7 (-4)) [.at (Flt.ofInt b32 5) (Flt.ofInt b32 (-7)), .colocated]
    (handlesOf (moveSample.setPosition (Flt.ofInt b32 10) (Flt.ofInt b32 0))) := by
  have w : ∀ i : Int, i.natAbs ≤ 100 → (Flt.ofInt b32 i).isFinite = true ∧ (Flt.ofInt b32 i).toRat = i := fun i hi =>
    val_int32 (i := i) (by omega)
  have := C92_accurate moveSample (Flt.ofInt b32 10) (Flt.ofInt b32 0) ⟨(w 3 (by decide)).1, (w 4 (by decide)).1⟩
      (w 10 (by decide)).1 (w 0 (by decide)).1
  simp only [moveSample, MPoint.getPosition, (w 3 (by decide)).2, (w 4 (by decide)).2, (w 10 (by decide)).2, (w 0 (by decide)).2] at this
  norm_num at this
  apply this
  intro h hm
  simp only [handlesOf, List.mem_cons, List.not_mem_nil, or_false] at hm
  rcases hm with rfl | rfl
  · refine ⟨(w 5 (by decide)).1, (w (-7) (by decide)).1, ?_, ?_⟩
    · rw [(w 5 (by decide)).2]; norm_num
    · rw [(w (-7) (by decide)).2]; norm_num
  · trivial

/-! ## C93 -/

/-- The cubic curve of three numbers as computed, against the quadratic one. -/
theorem raised_within {a b c : F32} {M t : ℚ} (ha : a.isFinite = true) (hb : b.isFinite = true) (hc : c.isFinite = true)
    (la : |a.toRat| ≤ M) (lb : |b.toRat| ≤ M) (lc : |c.toRat| ≤ M) (hM : M ≤ 2 ^ 124) (h0 : 0 ≤ t) (h1 : t ≤ 1) :
    |bezier3 a.toRat (a + twoThirds * (b - a)).toRat (c + twoThirds * (b - c)).toRat c.toRat t - bezier2 a.toRat b.toRat c.toRat t| ≤
      5 * M / 2 ^ 24 + 1 / 2 ^ 149 := by
  have third : ∀ p : ℚ, |p| ≤ M → |p + 2 / 3 * (b.toRat - p)| ≤ M ∧ |b.toRat - p| ≤ 2 * M := by
    intro p hp
    have e : p + 2 / 3 * (b.toRat - p) = 1 / 3 * p + 2 / 3 * b.toRat := by ring
    rw [e, abs_le, abs_le]
    rw [abs_le] at hp lb
    constructor <;> constructor <;> linarith
  have err : ∀ {p : F32}, p.isFinite = true → |p.toRat| ≤ M →
      |(p + twoThirds * (b - p)).toRat - (p.toRat + 2 / 3 * (b.toRat - p.toRat))| ≤ 5 * M / 2 ^ 24 + 1 / 2 ^ 149 := by
    intro p hp lp
    refine (third_within hp hb (lp.trans hM) (lb.trans hM)).2.trans ?_
    obtain ⟨h2, h3⟩ := third p.toRat lp
    have : sumError (p.toRat + 2 / 3 * (b.toRat - p.toRat)) (b.toRat - p.toRat) ≤ 5 * M / 2 ^ 24 := by
      unfold sumError
      apply div_le_div_of_nonneg_right _ (by positivity)
      linarith
    linarith
  have e1 := err ha la
  have e2 := err hc lc
  generalize (a + twoThirds * (b - a)).toRat = u at *
  generalize (c + twoThirds * (b - c)).toRat = v at *
  generalize hB : 5 * M / 2 ^ 24 + 1 / 2 ^ 149 = B at *
  have e : bezier3 a.toRat u v c.toRat t - bezier2 a.toRat b.toRat c.toRat t =
      3 * (1 - t) ^ 2 * t * (u - (a.toRat + 2 / 3 * (b.toRat - a.toRat))) +
      3 * (1 - t) * t ^ 2 * (v - (c.toRat + 2 / 3 * (b.toRat - c.toRat))) := by
    unfold bezier3 bezier2
    ring
  rw [e]
  have h2 : 0 ≤ 1 - t := by linarith
  have w1 : 0 ≤ 3 * (1 - t) ^ 2 * t := by positivity
  have w2 : 0 ≤ 3 * (1 - t) * t ^ 2 := by positivity
  refine (abs_add_le _ _).trans ?_
  rw [abs_mul (3 * (1 - t) ^ 2 * t), abs_mul (3 * (1 - t) * t ^ 2), abs_of_nonneg w1, abs_of_nonneg w2]
  have b1 := mul_le_mul_of_nonneg_left e1 w1
  have b2 := mul_le_mul_of_nonneg_left e2 w2
  have hB0 : 0 ≤ B := (abs_nonneg _).trans e1
  have hw : 3 * (1 - t) ^ 2 * t + 3 * (1 - t) * t ^ 2 ≤ 1 := by
    have : 3 * (1 - t) ^ 2 * t + 3 * (1 - t) * t ^ 2 = 3 / 4 - 3 * (t - 1 / 2) ^ 2 := by ring
    rw [this]
    have := sq_nonneg (t - 1 / 2)
    linarith
  have := mul_le_mul_of_nonneg_right hw hB0
  linarith

/-- **C93.** When a quadratic curve is made a cubic one, the cubic curve as computed is at every parameter within
`5/2^24` of the size of the coordinates (and `2^-149`) of the quadratic curve. -/
theorem C93_accurate (p0 p1 p2 : SkPoint) (M t : ℚ) (hM : M ≤ 2 ^ 124)
    (h : ∀ p ∈ [p0, p1, p2], (p.1.isFinite = true ∧ |p.1.toRat| ≤ M) ∧ p.2.isFinite = true ∧ |p.2.toRat| ≤ M)
    (h0 : 0 ≤ t) (h1 : t ≤ 1) :
    let q := quadToCubic twoThirds p0 p1 p2
    |bezier3 q.1.1.toRat q.2.1.1.toRat q.2.2.1.1.toRat q.2.2.2.1.toRat t - bezier2 p0.1.toRat p1.1.toRat p2.1.toRat t| ≤
        5 * M / 2 ^ 24 + 1 / 2 ^ 149 ∧
    |bezier3 q.1.2.toRat q.2.1.2.toRat q.2.2.1.2.toRat q.2.2.2.2.toRat t - bezier2 p0.2.toRat p1.2.toRat p2.2.toRat t| ≤
        5 * M / 2 ^ 24 + 1 / 2 ^ 149 := by
  have a := h p0 (by simp)
  have b := h p1 (by simp)
  have c := h p2 (by simp)
  exact ⟨raised_within a.1.1 b.1.1 c.1.1 a.1.2 b.1.2 c.1.2 hM h0 h1, raised_within a.2.1 b.2.1 c.2.1 a.2.2 b.2.2 c.2.2 hM h0 h1⟩

/-- Three points of a curve that meet the hypotheses. -/
example : ∀ p ∈ [(Flt.ofInt b32 0, Flt.ofInt b32 10), (Flt.ofInt b32 50, Flt.ofInt b32 (-10)), ((Flt.ofInt b32 100, Flt.ofInt b32 10) : SkPoint)],
    (p.1.isFinite = true ∧ |p.1.toRat| ≤ 100) ∧ p.2.isFinite = true ∧ |p.2.toRat| ≤ 100 := by
  have w : ∀ i : Int, i.natAbs ≤ 100 → (Flt.ofInt b32 i).isFinite = true ∧ |(Flt.ofInt b32 i).toRat| ≤ 100 := by
    intro i hi
    obtain ⟨h1, h2⟩ := val_int32 (i := i) (by omega)
    refine ⟨h1, ?_⟩
    rw [h2, ← Int.cast_abs]
    have : |i| ≤ 100 := abs_le.2 ⟨by omega, by omega⟩
    exact_mod_cast this
  intro p hp
  simp only [List.mem_cons, List.not_mem_nil, or_false] at hp
  rcases hp with rfl | rfl | rfl <;> exact ⟨w _ (by decide), w _ (by decide)⟩

end GP
