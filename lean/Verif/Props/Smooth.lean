import Verif.Lemmas.Smooth
import Verif.Props.Index
/-!
# C105: the smoothness test measures the distance to the segment between the handles
-/
open Fl
namespace GP
open Spec
variable {PD : Type}

set_option exponentiation.threshold 600

/-- A finite `f32` is a multiple of `2^-149`. -/
theorem f32_grain (x y : F32) : x.toRat = y.toRat ∨ 1 / 2 ^ 149 ≤ |x.toRat - y.toRat| := by
  by_cases h : x.sval = y.sval
  · left
    unfold Flt.toRat
    rw [h]
  · right
    have h1 : (1 : ℤ) ≤ |x.sval - y.sval| := Int.one_le_abs (sub_ne_zero.2 h)
    have h2 : (1 : ℚ) ≤ |(x.sval : ℚ) - y.sval| := by exact_mod_cast h1
    unfold Flt.toRat
    rw [← sub_div, abs_div, abs_of_pos (by positivity : (0 : ℚ) < 2 ^ b32.u)]
    exact div_le_div_of_nonneg_right h2 (by positivity)

theorem f32_size {x : F32} (hx : x.isFinite = true) : |x.toRat| ≤ 2 ^ 130 := by
  obtain ⟨s, k, hk, rfl, hkl⟩ := finite_num hx
  rw [abs_toRat_num, div_le_iff₀ (by positivity)]
  have h1 : b32.val k ≤ b32.val (b32.inf - 1) := by
    rcases Nat.lt_or_eq_of_le (Nat.le_sub_one_of_lt hkl) with h | h
    · exact (Fmt.val_strictMono b32 (by decide) h).le
    · rw [h]
  have h2 : b32.val (b32.inf - 1) ≤ 2 ^ 130 * 2 ^ b32.u := by decide +kernel
  exact_mod_cast h1.trans h2

/-- The point the code finds, for numbers that were `f32`s. -/
theorem near_core {m : ℚ} {px py ax ay bx byy w : F32} (hp : SizeAtMost m px py) (ha : SizeAtMost m ax ay)
    (hb : SizeAtMost m bx byy) (hw : w.isFinite = true) :
    (nearLine (px.to64, py.to64) (ax.to64, ay.to64) (bx.to64, byy.to64) w.to64 = true →
      NearSegment (w.toRat + slack m w.toRat) (spot px py) (spot ax ay) (spot bx byy)) ∧
    (∀ r, NearSegment r (spot px py) (spot ax ay) (spot bx byy) → r + slack m w.toRat ≤ w.toRat →
      nearLine (px.to64, py.to64) (ax.to64, ay.to64) (bx.to64, byy.to64) w.to64 = true) := by
  obtain ⟨fp1, fp2, bp1, bp2⟩ := hp
  obtain ⟨fa1, fa2, ba1, ba2⟩ := ha
  obtain ⟨fb1, fb2, bb1, bb2⟩ := hb
  have vp1 := to64_val fp1
  have vp2 := to64_val fp2
  have va1 := to64_val fa1
  have va2 := to64_val fa2
  have vb1 := to64_val fb1
  have vb2 := to64_val fb2
  have vw := to64_val hw
  -- a bound that is not too large
  obtain ⟨M, M0, hM, hMm, cp1, cp2, ca1, ca2, cb1, cb2⟩ : ∃ M : ℚ, 0 ≤ M ∧ M ≤ 2 ^ 130 ∧ M ≤ m ∧ |px.toRat| ≤ M ∧ |py.toRat| ≤ M ∧
      |ax.toRat| ≤ M ∧ |ay.toRat| ≤ M ∧ |bx.toRat| ≤ M ∧ |byy.toRat| ≤ M :=
    ⟨min m (2 ^ 130), le_min ((abs_nonneg _).trans bp1) (by positivity), min_le_right _ _, min_le_left _ _,
      le_min bp1 (f32_size fp1), le_min bp2 (f32_size fp2), le_min ba1 (f32_size fa1), le_min ba2 (f32_size fa2),
      le_min bb1 (f32_size fb1), le_min bb2 (f32_size fb2)⟩
  have grain : (bx.to64.toRat = ax.to64.toRat ∧ byy.to64.toRat = ay.to64.toRat) ∨
      1 / 2 ^ 149 ≤ |bx.to64.toRat - ax.to64.toRat| + |byy.to64.toRat - ay.to64.toRat| := by
    rw [vb1.2, vb2.2, va1.2, va2.2]
    rcases f32_grain bx ax with h1 | h1
    · rcases f32_grain byy ay with h2 | h2
      · exact Or.inl ⟨h1, h2⟩
      · exact Or.inr (h2.trans (le_add_of_nonneg_left (abs_nonneg _)))
    · exact Or.inr (h1.trans (le_add_of_nonneg_right (abs_nonneg _)))
  obtain ⟨c, d, τ, τ0, τ1, he, fc, fd, hc, hd, hbest⟩ := foot_found M0 hM (a := (ax.to64, ay.to64)) (b := (bx.to64, byy.to64))
    (p := (px.to64, py.to64)) va1.1 va2.1 vb1.1 vb2.1 vp1.1 vp2.1 (by rw [va1.2]; exact ca1) (by rw [va2.2]; exact ca2)
    (by rw [vb1.2]; exact cb1) (by rw [vb2.2]; exact cb2) (by rw [vp1.2]; exact cp1) (by rw [vp2.2]; exact cp2) grain
  dsimp only at hc hd hbest
  simp only [vp1.2, vp2.2, va1.2, va2.2, vb1.2, vb2.2] at hc hd hbest
  unfold nearLine
  rw [he]
  -- the size of the vector measured
  have small : ∀ {p a b e : ℚ}, |p| ≤ M → |a| ≤ M → |b| ≤ M → |e - (p - (a + τ * (b - a)))| ≤ M / 2 ^ 48 + 1 / 2 ^ 248 → |e| ≤ 2 ^ 140 := by
    intro p a b e h1 h2 h3 h4
    have k1 := abs_near h4
    have k2 : |p - (a + τ * (b - a))| ≤ |p| + (|a| + |b - a|) := by
      refine (abs_sub _ _).trans ?_
      have : |a + τ * (b - a)| ≤ |a| + |b - a| := by
        refine (abs_add_le _ _).trans ?_
        rw [abs_mul, abs_of_nonneg τ0]
        have := mul_le_of_le_one_left (abs_nonneg (b - a)) τ1
        linarith
      linarith
    have k3 := abs_sub b a
    have k4 : M / 2 ^ 48 ≤ M := div_le_self M0 (one_le_pow₀ (by norm_num))
    have k5 : (1 : ℚ) / 2 ^ 248 ≤ 1 := by norm_num
    have k6 : (6 : ℚ) * 2 ^ 130 + 1 ≤ 2 ^ 140 := by norm_num
    linarith
  obtain ⟨t1, t2⟩ := dist_test fc fd vw.1 (small cp1 ca1 cb1 hc) (small cp2 ca2 cb2 hd)
  rw [vw.2] at t1 t2
  unfold NearSegment spot along distSq slack
  dsimp only
  constructor
  · intro h
    obtain ⟨W0, hq⟩ := t1 h
    have m0 : 0 ≤ m := M0.trans hMm
    refine ⟨by positivity, τ, τ0, τ1, ?_⟩
    have hcd := perturb (x' := px.toRat - (ax.toRat + τ * (bx.toRat - ax.toRat))) (y' := py.toRat - (ay.toRat + τ * (byy.toRat - ay.toRat))) (by positivity) hq ((abs_sub_comm _ _).trans_le hc) ((abs_sub_comm _ _).trans_le hd)
    refine hcd.trans (pow_le_pow_left₀ (by positivity) ?_ 2)
    norm_num
    linarith
  · rintro r ⟨r0, s, s0, s1, hs⟩ hr
    have h1 := hbest s r s0 s1 r0 hs
    have h2 := perturb (by positivity) h1 hc hd
    refine t2 _ (by positivity) h2 ?_
    have W0 : 0 ≤ w.toRat := by
      have : 0 ≤ (m + w.toRat) / 2 ^ 42 + 1 / 2 ^ 80 ∨ (m + w.toRat) / 2 ^ 42 + 1 / 2 ^ 80 < 0 := le_or_gt _ _
      have m0 : 0 ≤ m := M0.trans hMm
      norm_num at hr ⊢
      linarith
    norm_num at hr ⊢
    linarith

/-- What a NaN does to the operations. -/
theorem nan_ops (x : F64) : (Flt.nan.sub x : F64) = .nan ∧ x.sub .nan = .nan ∧ (Flt.nan.add x : F64) = .nan ∧ x.add .nan = .nan ∧
    (Flt.nan.mul x : F64) = .nan ∧ x.mul .nan = .nan ∧ (Flt.nan.div x : F64) = .nan ∧ x.div .nan = .nan ∧
    Flt.fle .nan x = false ∧ Flt.fle x .nan = false := by
  cases x <;> simp [Flt.sub, Flt.neg, Flt.add, Flt.mul, Flt.div, Flt.fle, Flt.flt, Flt.feq]

/-- With a number that is none among the coordinates the distance is none. -/
theorem nearestSq_nan {px py ax ay bx byy : F64} (h : px = .nan ∨ py = .nan ∨ ax = .nan ∨ ay = .nan ∨ bx = .nan ∨ byy = .nan) :
    Kurbo.nearestSq (ax, ay) (bx, byy) (px, py) = .nan := by
  have hdot : Kurbo.dot (Kurbo.sub (bx, byy) (ax, ay)) (Kurbo.sub (px, py) (ax, ay)) = .nan := by
    unfold Kurbo.dot Kurbo.sub
    dsimp only
    have n := nan_ops
    rcases h with rfl | rfl | rfl | rfl | rfl | rfl <;> simp only [(n _).1, (n _).2.1, (n _).2.2.1, (n _).2.2.2.1, (n _).2.2.2.2.1, (n _).2.2.2.2.2.1]
  unfold Kurbo.nearestSq
  dsimp only
  rw [hdot]
  have n := nan_ops
  simp only [(n _).2.2.2.2.2.2.2.2.1, (n _).2.2.2.2.2.2.2.2.2, Bool.false_eq_true, if_false, (n _).2.2.2.2.2.2.1]
  unfold Kurbo.eval Kurbo.dot Kurbo.sub
  dsimp only
  simp only [(n _).2.1, (n _).2.2.1, (n _).2.2.2.1, (n _).2.2.2.2.1]

/-- The test, if there are two handles. -/
def testBy (near : SmoothTest) (p : Point PD) (w : F32) : Handle → Handle → Bool
  | .at x1 y1, .at x2 y2 => near (F32.to64 p.x, F32.to64 p.y) (F32.to64 x1, F32.to64 y1) (F32.to64 x2, F32.to64 y2) (F32.to64 w)
  | _, _ => false

/-- The query on a contour, by the handles the point is judged by. -/
theorem judged {near : SmoothTest} {c : Contour PD} {i : Nat} {p : Point PD} {h k : Handle} {w : F32} (hj : JudgedBy c i p h k) :
    isPointSmoothWithin near c i w = .ok (testBy near p w h k) := by
  cases hj with
  | inner i p h0 h hp => 
    rw [C33_inner near c i w h0 (by omega) p hp]
    cases p.a <;> cases p.b <;> rfl
  | first p q h2 hm hp hq =>
    have hs : ¬ StartsWithMove c := by
      cases c with
      | nil => simp at hp
      | cons x l => simp at hp; subst hp; simpa [StartsWithMove] using hm
    rw [(C57_closed_ends near c w h2 hs p q hp hq).1]
    unfold ownSmooth
    dsimp only
    cases p.a <;> cases q.b <;> rfl
  | last p q h2 hm hp hq =>
    have hs : ¬ StartsWithMove c := by
      cases c with
      | nil => simp at hp
      | cons x l => simp at hp; subst hp; simpa [StartsWithMove] using hm
    rw [(C57_closed_ends near c w h2 hs p _ hp hq).2]
    unfold ownSmooth
    dsimp only
    cases p.a <;> cases (Point.b _) <;> rfl

/-- **C105.** A point that is reported smooth is at most the tolerance away from the segment between the handles it
is judged by. -/
theorem C105_sound (c : Contour PD) (i : Nat) (w : F32) (m : ℚ) (p : Point PD) (ax ay bx byy : F32)
    (hj : JudgedBy c i p (.at ax ay) (.at bx byy)) (hp : SizeAtMost m p.x p.y) (ha : SizeAtMost m ax ay)
    (hb : SizeAtMost m bx byy) (hw : w.isFinite = true) (h : isPointSmoothWithin nearLine c i w = .ok true) :
    NearSegment (w.toRat + slack m w.toRat) (spot p.x p.y) (spot ax ay) (spot bx byy) := by
  rw [judged hj] at h
  exact (near_core hp ha hb hw).1 (Out.ok.inj h)

/-- A point that is that near to the segment is reported smooth. -/
theorem C105_complete (c : Contour PD) (i : Nat) (w : F32) (m r : ℚ) (p : Point PD) (ax ay bx byy : F32)
    (hj : JudgedBy c i p (.at ax ay) (.at bx byy)) (hp : SizeAtMost m p.x p.y) (ha : SizeAtMost m ax ay)
    (hb : SizeAtMost m bx byy) (hw : w.isFinite = true) (hr : r + slack m w.toRat ≤ w.toRat)
    (h : NearSegment r (spot p.x p.y) (spot ax ay) (spot bx byy)) : isPointSmoothWithin nearLine c i w = .ok true := by
  rw [judged hj]
  exact congrArg _ ((near_core hp ha hb hw).2 r h hr)

/-- Without one of the handles the point is not smooth. -/
theorem C105_missing (near : SmoothTest) (c : Contour PD) (i : Nat) (w : F32) (p : Point PD) (h k : Handle) (hj : JudgedBy c i p h k)
    (hm : h = .colocated ∨ k = .colocated) : isPointSmoothWithin near c i w = .ok false := by
  rw [judged hj]
  rcases hm with rfl | rfl
  · cases k <;> rfl
  · cases h <;> rfl

/-- With a NaN among the numbers the point is not smooth. -/
theorem C105_nan (c : Contour PD) (i : Nat) (w : F32) (p : Point PD) (ax ay bx byy : F32)
    (hj : JudgedBy c i p (.at ax ay) (.at bx byy))
    (hn : p.x = .nan ∨ p.y = .nan ∨ ax = .nan ∨ ay = .nan ∨ bx = .nan ∨ byy = .nan ∨ w = .nan) :
    isPointSmoothWithin nearLine c i w = .ok false := by
  rw [judged hj]
  congr 1
  unfold testBy nearLine
  dsimp only
  have key : w = .nan ∨ (p.x.to64 = .nan ∨ p.y.to64 = .nan ∨ ax.to64 = .nan ∨ ay.to64 = .nan ∨ bx.to64 = .nan ∨ byy.to64 = .nan) := by
    have e : F32.to64 .nan = .nan := rfl
    rcases hn with h | h | h | h | h | h | h <;> simp [h, e]
  rcases key with rfl | h
  · exact (nan_ops _).2.2.2.2.2.2.2.2.2
  · rw [nearestSq_nan h]
    exact (nan_ops _).2.2.2.2.2.2.2.2.1

/-- A zero of either sign. -/
def IsZero (x : F64) : Prop := ∃ s h, x = .num s 0 h

theorem IsZero.sub {x : F64} (hx : x.isFinite = true) : IsZero (x.sub x) := by
  obtain ⟨s, k, hk, rfl, hkl⟩ := finite_num hx
  unfold Flt.sub Flt.neg Flt.add
  have e : (Flt.num s k hk : F64).sval + (Flt.num (!s) k hk : F64).sval = 0 := by cases s <;> simp [Flt.sval]
  simp only [if_neg (Nat.ne_of_lt hkl), e, if_true]
  split
  · exact ⟨_, _, rfl⟩
  · exact ⟨_, _, rfl⟩

theorem IsZero.mul {x y : F64} (hx : x.isFinite = true) (hy : IsZero y) : IsZero (x.mul y) := by
  obtain ⟨s, k, hk, rfl, hkl⟩ := finite_num hx
  obtain ⟨t, ht, rfl⟩ := hy
  unfold Flt.mul
  have h0 : (0 : Nat) ≠ b64.inf := by decide
  simp only [if_neg (Nat.ne_of_lt hkl), if_neg h0, Fmt.val_zero, Nat.mul_zero]
  have hr : b64.round 0 (2 ^ b64.u * 2 ^ b64.u) = 0 := by decide +kernel
  unfold Flt.ofFrac
  simp only [hr]
  exact ⟨_, _, rfl⟩

theorem IsZero.add {x y : F64} (hx : IsZero x) (hy : IsZero y) : IsZero (x.add y) := by
  obtain ⟨s, hs, rfl⟩ := hx
  obtain ⟨t, ht, rfl⟩ := hy
  cases s <;> cases t <;> exact ⟨_, _, rfl⟩

theorem IsZero.finite {x : F64} (hx : IsZero x) : x.isFinite = true := by
  obtain ⟨s, hs, rfl⟩ := hx
  rfl

theorem IsZero.fle {x w : F64} (hx : IsZero x) (hw : Flt.fle Flt.zero w = true) : Flt.fle x w = true := by
  obtain ⟨s, hs, rfl⟩ := hx
  cases w with
  | nan => simp [Flt.fle, Flt.flt, Flt.feq, Flt.zero] at hw
  | num t k hk =>
    cases s <;> cases t <;> simp [Flt.fle, Flt.flt, Flt.feq, Flt.zero] at hw ⊢ <;> omega

/-- A point at its own first handle is smooth with every tolerance, also with none. -/
theorem C105_at_handle (c : Contour PD) (i : Nat) (w : F32) (p : Point PD) (bx byy : F32)
    (hj : JudgedBy c i p (.at p.x p.y) (.at bx byy)) (hx : p.x.isFinite = true) (hy : p.y.isFinite = true) (hbx : bx.isFinite = true)
    (hby : byy.isFinite = true) (hw : Flt.fle Flt.zero (F32.to64 w) = true) : isPointSmoothWithin nearLine c i w = .ok true := by
  rw [judged hj]
  congr 1
  unfold testBy nearLine
  dsimp only
  have vx := to64_val hx
  have vy := to64_val hy
  have vbx := to64_val hbx
  have vby := to64_val hby
  have bnd : ∀ {a : F32} {b : F64}, a.isFinite = true → Val b a.toRat → |b.toRat| ≤ 2 ^ 130 := fun ha hb => by rw [hb.2]; exact f32_size ha
  have d1 := (sub_bound (le_refl _) vbx.1 vx.1 (bnd hbx vbx) (bnd hx vx)).1
  have d2 := (sub_bound (le_refl _) vby.1 vy.1 (bnd hby vby) (bnd hy vy)).1
  have z1 := IsZero.sub vx.1
  have z2 := IsZero.sub vy.1
  have hdot : IsZero (Kurbo.dot (Kurbo.sub (bx.to64, byy.to64) (p.x.to64, p.y.to64)) (Kurbo.sub (p.x.to64, p.y.to64) (p.x.to64, p.y.to64))) :=
    IsZero.add (IsZero.mul d1 z1) (IsZero.mul d2 z2)
  have hres : IsZero (Kurbo.nearestSq (p.x.to64, p.y.to64) (bx.to64, byy.to64) (p.x.to64, p.y.to64)) := by
    unfold Kurbo.nearestSq
    dsimp only
    rw [if_pos (hdot.fle (by decide))]
    exact IsZero.add (IsZero.mul z1.finite z1) (IsZero.mul z2.finite z2)
  obtain ⟨s, h, e⟩ := hres
  rw [e]
  exact IsZero.fle ⟨s, h, rfl⟩ hw

theorem defaultTolerance_val : defaultTolerance.isFinite = true ∧ 999999 / 100000000 < defaultTolerance.toRat - 8 / 10 ^ 9 ∧
    defaultTolerance.toRat + 8 / 10 ^ 9 < 1000001 / 100000000 := by
  decide +kernel

/-- At the sizes used in fonts: `check_smooth` finds out whether the distance is at most a hundredth of a unit, but
for a hundredth of a millionth. -/
theorem C105_fonts (c c' : Contour PD) (i : Nat) (s : Bool) (p : Point PD) (ax ay bx byy : F32)
    (hj : JudgedBy c i p (.at ax ay) (.at bx byy)) (hp : SizeAtMost 32768 p.x p.y) (ha : SizeAtMost 32768 ax ay)
    (hb : SizeAtMost 32768 bx byy) (h : checkSmooth nearLine c i = .ok (s, c')) :
    (s = true → NearSegment (1000001 / 100000000) (spot p.x p.y) (spot ax ay) (spot bx byy)) ∧
    (NearSegment (999999 / 100000000) (spot p.x p.y) (spot ax ay) (spot bx byy) → s = true) := by
  have hs := (C33_local nearLine c c' i s h).1
  obtain ⟨hf, h1, h2⟩ := defaultTolerance_val
  have hsl : slack 32768 defaultTolerance.toRat ≤ 8 / 10 ^ 9 := by
    unfold slack
    norm_num at h2 ⊢
    linarith
  constructor
  · rintro rfl
    obtain ⟨k0, τ, τ0, τ1, k⟩ := C105_sound c i _ _ p ax ay bx byy hj hp ha hb hf hs
    exact ⟨by norm_num, τ, τ0, τ1, k.trans (pow_le_pow_left₀ k0 (by linarith) 2)⟩
  · intro hn
    have := C105_complete c i _ _ _ p ax ay bx byy hj hp ha hb hf (by linarith) hn
    rw [hs] at this
    exact Out.ok.inj this

/-- The witness against C57, with the test of the code: the first point of a closed contour has two handles in line
with it, and is not smooth, because the last point has no incoming handle. -/
theorem C57_false_code : ∃ (c : Contour Unit) (p : Point Unit), 2 ≤ c.length ∧ ¬ StartsWithMove c ∧ c[0]? = some p ∧
    NearSegment 0 (spot p.x p.y) (spot (Sample.f 1) (Sample.f 1)) (spot (Sample.f (-1)) (Sample.f (-1))) ∧
    p.a = .at (Sample.f 1) (Sample.f 1) ∧ p.b = .at (Sample.f (-1)) (Sample.f (-1)) ∧
    isPointSmoothWithin nearLine c 0 defaultTolerance = .ok false := by
  refine ⟨[Sample.cv 0 0 1 1 (-1) (-1), Sample.pt .line 5 0], Sample.cv 0 0 1 1 (-1) (-1), by decide, ?_, rfl, ?_, rfl, rfl, rfl⟩
  · simp [StartsWithMove, Sample.cv]
  · refine ⟨le_refl _, 1 / 2, by norm_num, by norm_num, ?_⟩
    have e0 : (Sample.f 0).toRat = 0 := (val_int32 (i := 0) (by decide)).2.trans (by norm_num)
    have e1 : (Sample.f 1).toRat = 1 := (val_int32 (i := 1) (by decide)).2.trans (by norm_num)
    have e2 : (Sample.f (-1)).toRat = -1 := (val_int32 (i := -1) (by decide)).2.trans (by norm_num)
    unfold distSq along spot
    simp only [Sample.cv, e0, e1, e2]
    norm_num

/-- A curve point whose handles are not quite in line with it: found smooth, at 1/200 from the segment. -/
example : checkSmooth nearLine [Sample.pt .line 0 0, { Sample.cv 100 0 200 0 0 0 with y := Flt.ofFrac b32 false 1 200 }, Sample.pt .line 5 0] 1 =
    .ok (true, [Sample.pt .line 0 0, { Sample.cv 100 0 200 0 0 0 with y := Flt.ofFrac b32 false 1 200, smooth := true }, Sample.pt .line 5 0]) := by
  decide +kernel

/-- And one that is not: both handles on the same side, though in line with the point. -/
example : isPointSmoothWithin nearLine [Sample.pt .line 0 0, Sample.cv 100 0 200 0 300 0, Sample.pt .line 5 0] 1 defaultTolerance = .ok false := by
  decide +kernel

example : JudgedBy [Sample.pt .line 0 0, Sample.cv 100 0 200 0 300 0, Sample.pt .line 5 0] 1 (Sample.cv 100 0 200 0 300 0)
    (.at (Sample.f 200) (Sample.f 0)) (.at (Sample.f 300) (Sample.f 0)) := .inner 1 _ (by decide) (by decide) rfl

example : SizeAtMost 32768 (Sample.f 100) (Sample.f 300) := by
  unfold SizeAtMost
  decide +kernel

/-- A point with a handle on it, and the tolerance 0. -/
example : isPointSmoothWithin nearLine [Sample.pt .line 0 0, Sample.cv 100 50 100 50 300 20, Sample.pt .line 5 0] 1 Flt.zero = .ok true := by
  decide +kernel

end GP
