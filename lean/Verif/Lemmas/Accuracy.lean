import Verif.Spec.Accuracy
import Verif.Model.Skia
import Mathlib.Tactic.Ring
/-!
# Lemmas on rounding errors
-/
open Fl
namespace GP
open Spec

/-- The errors of two products, two sums and a conversion add up to no more than this; `η` and `ζ` are half the
smallest numbers of the two formats. -/
theorem line_error (A C E p q s t r η ζ : ℚ) (hη : 0 ≤ η) (hζ : 8 * η ≤ ζ)
    (h1 : |p - A| ≤ |A| / 2 ^ 53 + η) (h2 : |q - C| ≤ |C| / 2 ^ 53 + η) (h3 : |s - (p + q)| ≤ |p + q| / 2 ^ 53 + η)
    (h4 : |t - (s + E)| ≤ |s + E| / 2 ^ 53 + η) (h5 : |r - t| ≤ |t| / 2 ^ 24 + ζ) :
    |r - (A + C + E)| ≤ |A + C + E| / 2 ^ 24 + (|A| + |C| + |E|) / 2 ^ 50 + 2 * ζ := by
  have a1 : |p| ≤ |A| + |p - A| := by
    have := abs_add_le A (p - A); rwa [add_sub_cancel] at this
  have a2 : |q| ≤ |C| + |q - C| := by
    have := abs_add_le C (q - C); rwa [add_sub_cancel] at this
  have a3 := abs_add_le p q
  have a4 : |s| ≤ |p + q| + |s - (p + q)| := by
    have := abs_add_le (p + q) (s - (p + q)); rwa [add_sub_cancel] at this
  have a5 := abs_add_le s E
  have a6 : |t - (A + C + E)| ≤ |t - (s + E)| + (|s - (p + q)| + (|p - A| + |q - C|)) := by
    have e : t - (A + C + E) = (t - (s + E)) + ((s - (p + q)) + ((p - A) + (q - C))) := by ring
    rw [e]
    have b1 := abs_add_le (t - (s + E)) ((s - (p + q)) + ((p - A) + (q - C)))
    have b2 := abs_add_le (s - (p + q)) ((p - A) + (q - C))
    have b3 := abs_add_le (p - A) (q - C)
    linarith
  have a7 : |t| ≤ |A + C + E| + |t - (A + C + E)| := by
    have := abs_add_le (A + C + E) (t - (A + C + E)); rwa [add_sub_cancel] at this
  have a8 : |r - (A + C + E)| ≤ |r - t| + |t - (A + C + E)| := by
    have e : r - (A + C + E) = (r - t) + (t - (A + C + E)) := by ring
    rw [e]
    exact abs_add_le _ _
  have n1 := abs_nonneg A
  have n2 := abs_nonneg C
  have n3 := abs_nonneg E
  generalize |r - (A + C + E)| = x1 at *
  generalize |t - (A + C + E)| = x2 at *
  generalize |A + C + E| = x3 at *
  norm_num at h1 h2 h3 h4 h5 ⊢
  linarith

theorem tiny : (8 : ℚ) * (1 / 2 ^ (b64.u + 1)) ≤ 1 / 2 ^ (b32.u + 1) := by
  have e : (2 : ℚ) ^ (b64.u + 1) = 2 ^ (b32.u + 1) * 2 ^ 925 := by rw [← pow_add]; rfl
  have hP : (0 : ℚ) < 2 ^ (b32.u + 1) := by positivity
  have hQ : (8 : ℚ) ≤ 2 ^ 925 := by
    calc (8 : ℚ) = 2 ^ 3 := by norm_num
      _ ≤ 2 ^ 925 := pow_le_pow_right₀ (by norm_num) (by norm_num)
  rw [e]
  generalize (2 : ℚ) ^ (b32.u + 1) = P at *
  generalize (2 : ℚ) ^ 925 = Q at *
  rw [mul_one_div, div_le_div_iff₀ (mul_pos hP (by linarith)) hP]
  nlinarith

theorem b64_largest' : (2 : ℚ) ^ 127 ≤ b64.largest :=
  le_trans (pow_le_pow_right₀ (by norm_num) (by norm_num)) b64_largest

/-- `c x + d y + e`, computed in `f64` and rounded to `f32`. -/
theorem line_within {c d e : F64} {x y : F32} (hc : c.isFinite = true) (hd : d.isFinite = true) (he : e.isFinite = true)
    (hx : x.isFinite = true) (hy : y.isFinite = true) (h : lineSize c d e x y ≤ 2 ^ 126) :
    Near ((c * x.to64 + d * y.to64 + e).to32) (line c d e x y) (lineError c d e x y) := by
  have hi64 : 0 < b64.inf := by decide
  have hi32 : 0 < b32.inf := by decide
  obtain ⟨fx, ex⟩ := to64_val hx
  obtain ⟨fy, ey⟩ := to64_val hy
  unfold lineSize at h
  have n1 := abs_nonneg (c.toRat * x.toRat)
  have n2 := abs_nonneg (d.toRat * y.toRat)
  have n3 := abs_nonneg e.toRat
  have L := b64_largest'
  have hη : (0 : ℚ) ≤ 1 / 2 ^ (b64.u + 1) := by positivity
  have hη1 : (1 : ℚ) / 2 ^ (b64.u + 1) ≤ 1 := by
    rw [div_le_one (by positivity)]
    exact one_le_pow₀ (by norm_num)
  obtain ⟨f1, h1⟩ := mul_rounded b64_p2 hi64 hc fx (by rw [ex]; linarith)
  obtain ⟨f2, h2⟩ := mul_rounded b64_p2 hi64 hd fy (by rw [ey]; linarith)
  rw [ex] at h1
  rw [ey] at h2
  rw [show b64.p = 53 from rfl] at h1 h2
  have hζ : (8 : ℚ) * (1 / 2 ^ (b64.u + 1)) ≤ 1 / 2 ^ (b32.u + 1) := by
    exact tiny
  obtain ⟨η, eη⟩ : ∃ η : ℚ, (1 : ℚ) / 2 ^ (b64.u + 1) = η := ⟨_, rfl⟩
  rw [eη] at hη hη1 h1 h2 hζ
  have hp : |(c.mul x.to64).toRat| ≤ |c.toRat * x.toRat| + |(c.mul x.to64).toRat - c.toRat * x.toRat| := by
    have := abs_add_le (c.toRat * x.toRat) ((c.mul x.to64).toRat - c.toRat * x.toRat); rwa [add_sub_cancel] at this
  have hq : |(d.mul y.to64).toRat| ≤ |d.toRat * y.toRat| + |(d.mul y.to64).toRat - d.toRat * y.toRat| := by
    have := abs_add_le (d.toRat * y.toRat) ((d.mul y.to64).toRat - d.toRat * y.toRat); rwa [add_sub_cancel] at this
  have hpq := abs_add_le (c.mul x.to64).toRat (d.mul y.to64).toRat
  obtain ⟨f3, h3⟩ := add_rounded b64_p2 hi64 f1 f2 (by linarith)
  rw [show b64.p = 53 from rfl, eη] at h3
  have hs : |((c.mul x.to64).add (d.mul y.to64)).toRat| ≤ |(c.mul x.to64).toRat + (d.mul y.to64).toRat| +
      |((c.mul x.to64).add (d.mul y.to64)).toRat - ((c.mul x.to64).toRat + (d.mul y.to64).toRat)| := by
    have := abs_add_le ((c.mul x.to64).toRat + (d.mul y.to64).toRat)
      (((c.mul x.to64).add (d.mul y.to64)).toRat - ((c.mul x.to64).toRat + (d.mul y.to64).toRat))
    rwa [add_sub_cancel] at this
  have hsE := abs_add_le ((c.mul x.to64).add (d.mul y.to64)).toRat e.toRat
  obtain ⟨f4, h4⟩ := add_rounded b64_p2 hi64 f3 he (by linarith)
  rw [show b64.p = 53 from rfl, eη] at h4
  have ht : |(((c.mul x.to64).add (d.mul y.to64)).add e).toRat| ≤ |((c.mul x.to64).add (d.mul y.to64)).toRat + e.toRat| +
      |(((c.mul x.to64).add (d.mul y.to64)).add e).toRat - (((c.mul x.to64).add (d.mul y.to64)).toRat + e.toRat)| := by
    have := abs_add_le (((c.mul x.to64).add (d.mul y.to64)).toRat + e.toRat)
      ((((c.mul x.to64).add (d.mul y.to64)).add e).toRat - (((c.mul x.to64).add (d.mul y.to64)).toRat + e.toRat))
    rwa [add_sub_cancel] at this
  have L' := b32_largest
  obtain ⟨f5, h5⟩ := cast_rounded (g := b32) b32_p2 hi32 f4 (by linarith)
  rw [show b32.p = 24 from rfl] at h5
  refine ⟨f5, (line_error _ _ _ _ _ _ _ _ _ _ hη hζ h1 h2 h3 h4 h5).trans (le_of_eq ?_)⟩
  unfold lineError line lineSize
  rw [show b32.u + 1 = 149 + 1 from rfl, pow_succ]
  congr 1
  norm_num

/-- `h - (p - x)`, computed in `f32`: the handle at `h` of a point moved from `p` to `x`. -/
theorem move_within {h p x : F32} (hh : h.isFinite = true) (hp : p.isFinite = true) (hx : x.isFinite = true)
    (h1 : |x.toRat - p.toRat| ≤ 2 ^ 125) (h2 : |h.toRat + (x.toRat - p.toRat)| ≤ 2 ^ 125) :
    Near (h.sub (p.sub x)) (h.toRat + (x.toRat - p.toRat)) (sumError (h.toRat + (x.toRat - p.toRat)) (x.toRat - p.toRat)) := by
  have hi : 0 < b32.inf := by decide
  have L := b32_largest
  obtain ⟨f1, e1⟩ := sub_close b32_p2 hi hp hx (by rw [abs_sub_comm]; linarith)
  rw [show b32.p = 24 from rfl] at e1
  have a1 : |h.toRat - (p.sub x).toRat| ≤ |h.toRat + (x.toRat - p.toRat)| + |(p.sub x).toRat - (p.toRat - x.toRat)| := by
    have e : h.toRat - (p.sub x).toRat = (h.toRat + (x.toRat - p.toRat)) - ((p.sub x).toRat - (p.toRat - x.toRat)) := by ring
    rw [e]
    exact abs_sub _ _
  rw [abs_sub_comm p.toRat x.toRat] at e1
  have n1 := abs_nonneg (x.toRat - p.toRat)
  obtain ⟨f2, e2⟩ := sub_close b32_p2 hi hh f1 (by linarith)
  rw [show b32.p = 24 from rfl] at e2
  refine ⟨f2, ?_⟩
  have a2 : |(h.sub (p.sub x)).toRat - (h.toRat + (x.toRat - p.toRat))| ≤
      |(h.sub (p.sub x)).toRat - (h.toRat - (p.sub x).toRat)| + |(p.sub x).toRat - (p.toRat - x.toRat)| := by
    have e : (h.sub (p.sub x)).toRat - (h.toRat + (x.toRat - p.toRat)) =
      ((h.sub (p.sub x)).toRat - (h.toRat - (p.sub x).toRat)) - ((p.sub x).toRat - (p.toRat - x.toRat)) := by ring
    rw [e]
    exact abs_sub _ _
  unfold sumError
  linarith

theorem twoThirds_val : twoThirds.isFinite = true ∧ |twoThirds.toRat - 2 / 3| ≤ 1 / 2 ^ 25 ∧ |twoThirds.toRat| ≤ 1 := by
  have e : twoThirds.sval = 11184811 * 2 ^ 125 := by decide +kernel
  have ev : twoThirds.toRat = 11184811 / 2 ^ 24 := by
    unfold Flt.toRat
    rw [e]
    rw [show b32.u = 149 from rfl]
    norm_num
  refine ⟨by decide +kernel, ?_, ?_⟩
  · rw [ev]
    norm_num [abs_le]
  · rw [ev]
    norm_num [abs_le]

/-- `p + (2/3) (q - p)`, computed in `f32`. -/
theorem third_within {p q : F32} (hp : p.isFinite = true) (hq : q.isFinite = true)
    (h1 : |p.toRat| ≤ 2 ^ 124) (h2 : |q.toRat| ≤ 2 ^ 124) :
    Near (p + twoThirds * (q - p)) (p.toRat + 2 / 3 * (q.toRat - p.toRat))
      (sumError (p.toRat + 2 / 3 * (q.toRat - p.toRat)) (q.toRat - p.toRat) + 1 / 2 ^ 149) := by
  have hi : 0 < b32.inf := by decide
  have L := b32_largest
  obtain ⟨fk, ek, bk⟩ := twoThirds_val
  have hD : |q.toRat - p.toRat| ≤ 2 ^ 125 := by
    have := abs_sub q.toRat p.toRat
    linarith
  have n1 := abs_nonneg (q.toRat - p.toRat)
  obtain ⟨f1, e1⟩ := sub_close b32_p2 hi hq hp (by linarith)
  rw [show b32.p = 24 from rfl] at e1
  have hd : |(q.sub p).toRat| ≤ |q.toRat - p.toRat| + |(q.sub p).toRat - (q.toRat - p.toRat)| := by
    have := abs_add_le (q.toRat - p.toRat) ((q.sub p).toRat - (q.toRat - p.toRat)); rwa [add_sub_cancel] at this
  -- the exact product is near two thirds of the difference
  have hkd : |twoThirds.toRat * (q.sub p).toRat| ≤ |(q.sub p).toRat| := by
    rw [abs_mul]
    exact mul_le_of_le_one_left (abs_nonneg _) bk
  have hprod : |twoThirds.toRat * (q.sub p).toRat - 2 / 3 * (q.toRat - p.toRat)| ≤
      1 / 2 ^ 25 * |(q.sub p).toRat| + 2 / 3 * |(q.sub p).toRat - (q.toRat - p.toRat)| := by
    have e : twoThirds.toRat * (q.sub p).toRat - 2 / 3 * (q.toRat - p.toRat) =
      (twoThirds.toRat - 2 / 3) * (q.sub p).toRat + 2 / 3 * ((q.sub p).toRat - (q.toRat - p.toRat)) := by ring
    rw [e]
    refine (abs_add_le _ _).trans ?_
    rw [abs_mul, abs_mul, abs_of_pos (show (0 : ℚ) < 2 / 3 by norm_num)]
    have := mul_le_mul_of_nonneg_right ek (abs_nonneg (q.sub p).toRat)
    linarith
  have hkd2 : |twoThirds.toRat * (q.sub p).toRat| ≤ 2 / 3 * |q.toRat - p.toRat| + |twoThirds.toRat * (q.sub p).toRat - 2 / 3 * (q.toRat - p.toRat)| := by
    have := abs_add_le (2 / 3 * (q.toRat - p.toRat)) (twoThirds.toRat * (q.sub p).toRat - 2 / 3 * (q.toRat - p.toRat))
    rwa [add_sub_cancel, abs_mul (2 / 3 : ℚ), abs_of_pos (show (0 : ℚ) < 2 / 3 by norm_num)] at this
  obtain ⟨f2, e2⟩ := mul_rounded b32_p2 hi fk f1 (by linarith)
  rw [show b32.p = 24 from rfl, show b32.u + 1 = 150 from rfl] at e2
  have hm : |(twoThirds.mul (q.sub p)).toRat - 2 / 3 * (q.toRat - p.toRat)| ≤
      |(twoThirds.mul (q.sub p)).toRat - twoThirds.toRat * (q.sub p).toRat| + |twoThirds.toRat * (q.sub p).toRat - 2 / 3 * (q.toRat - p.toRat)| :=
    abs_sub_le _ _ _
  have hs : |p.toRat + (twoThirds.mul (q.sub p)).toRat| ≤ |p.toRat + 2 / 3 * (q.toRat - p.toRat)| +
      |(twoThirds.mul (q.sub p)).toRat - 2 / 3 * (q.toRat - p.toRat)| := by
    have e : p.toRat + (twoThirds.mul (q.sub p)).toRat = (p.toRat + 2 / 3 * (q.toRat - p.toRat)) +
      ((twoThirds.mul (q.sub p)).toRat - 2 / 3 * (q.toRat - p.toRat)) := by ring
    rw [e]
    exact abs_add_le _ _
  have hT : |p.toRat + 2 / 3 * (q.toRat - p.toRat)| ≤ |p.toRat| + 2 / 3 * |q.toRat - p.toRat| := by
    refine (abs_add_le _ _).trans ?_
    rw [abs_mul, abs_of_pos (show (0 : ℚ) < 2 / 3 by norm_num)]
  obtain ⟨f3, e3⟩ := add_close b32_p2 hi hp f2 (by linarith)
  rw [show b32.p = 24 from rfl] at e3
  refine ⟨f3, ?_⟩
  have hr : |(p.add (twoThirds.mul (q.sub p))).toRat - (p.toRat + 2 / 3 * (q.toRat - p.toRat))| ≤
      |(p.add (twoThirds.mul (q.sub p))).toRat - (p.toRat + (twoThirds.mul (q.sub p)).toRat)| +
      |(twoThirds.mul (q.sub p)).toRat - 2 / 3 * (q.toRat - p.toRat)| := by
    have e : (p.add (twoThirds.mul (q.sub p))).toRat - (p.toRat + 2 / 3 * (q.toRat - p.toRat)) =
      ((p.add (twoThirds.mul (q.sub p))).toRat - (p.toRat + (twoThirds.mul (q.sub p)).toRat)) +
      ((twoThirds.mul (q.sub p)).toRat - 2 / 3 * (q.toRat - p.toRat)) := by ring
    rw [e]
    exact abs_add_le _ _
  refine hr.trans ?_
  unfold sumError
  generalize |(p.add (twoThirds.mul (q.sub p))).toRat - (p.toRat + (twoThirds.mul (q.sub p)).toRat)| = x1 at *
  generalize |(twoThirds.mul (q.sub p)).toRat - 2 / 3 * (q.toRat - p.toRat)| = x2 at *
  generalize |p.toRat + (twoThirds.mul (q.sub p)).toRat| = x3 at *
  generalize |p.toRat + 2 / 3 * (q.toRat - p.toRat)| = x4 at *
  generalize |(twoThirds.mul (q.sub p)).toRat - twoThirds.toRat * (q.sub p).toRat| = x5 at *
  generalize |twoThirds.toRat * (q.sub p).toRat| = x6 at *
  generalize |twoThirds.toRat * (q.sub p).toRat - 2 / 3 * (q.toRat - p.toRat)| = x7 at *
  generalize |(q.sub p).toRat - (q.toRat - p.toRat)| = x8 at *
  generalize |(q.sub p).toRat| = x9 at *
  generalize |q.toRat - p.toRat| = x10 at *
  clear hkd hT h1 h2 L hD
  norm_num at e1 e2 e3 hprod ⊢
  linarith

end GP
