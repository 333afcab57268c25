import Mathlib.Algebra.Order.Field.Basic
import Mathlib.Algebra.Order.Ring.Abs
import Mathlib.Algebra.Field.Rat
import Mathlib.Algebra.Order.Field.Rat
import Mathlib.Tactic.Linarith
import Mathlib.Tactic.Positivity
import Mathlib.Tactic.NormNum
import Mathlib.Tactic.Ring
/-!
# Bounds for the distance test, over the rationals
-/
namespace GP

/-- Off by at most a fraction of `2^-53`, or a very small number. -/
def Off (x v : ℚ) : Prop := |x - v| ≤ |v| / 2 ^ 53 + 1 / 2 ^ 250

theorem abs_near {x v e : ℚ} (h : |x - v| ≤ e) : |x| ≤ |v| + e := by
  have := abs_add_le v (x - v)
  rw [add_sub_cancel] at this
  linarith

/-- A vector that is changed a little. -/
theorem perturb {x y x' y' r a b : ℚ} (hr : 0 ≤ r) (h : x ^ 2 + y ^ 2 ≤ r ^ 2) (ha : |x' - x| ≤ a) (hb : |y' - y| ≤ b) :
    x' ^ 2 + y' ^ 2 ≤ (r + a + b) ^ 2 := by
  have hx : |x| ≤ r := abs_le_of_sq_le_sq (by nlinarith [sq_nonneg y]) hr
  have hy : |y| ≤ r := abs_le_of_sq_le_sq (by nlinarith [sq_nonneg x]) hr
  have ha0 := (abs_nonneg _).trans ha
  have hb0 := (abs_nonneg _).trans hb
  obtain ⟨e, rfl⟩ : ∃ e, x' = x + e := ⟨x' - x, by ring⟩
  obtain ⟨f, rfl⟩ : ∃ f, y' = y + f := ⟨y' - y, by ring⟩
  rw [add_sub_cancel_left] at ha hb
  have h1 : x * e ≤ r * a := (le_abs_self _).trans (by rw [abs_mul]; exact mul_le_mul hx ha (abs_nonneg _) hr)
  have h2 : y * f ≤ r * b := (le_abs_self _).trans (by rw [abs_mul]; exact mul_le_mul hy hb (abs_nonneg _) hr)
  have h3 : e ^ 2 ≤ a ^ 2 := sq_le_sq' (by linarith [(abs_le.1 ha).1]) (abs_le.1 ha).2
  have h4 : f ^ 2 ≤ b ^ 2 := sq_le_sq' (by linarith [(abs_le.1 hb).1]) (abs_le.1 hb).2
  nlinarith [mul_nonneg ha0 hb0]

/-- The coordinate of the vector from the computed point of the segment. -/
theorem foot_error {M a b p t d m e c : ℚ} (hM : 0 ≤ M) (ha : |a| ≤ M) (hb : |b| ≤ M) (hp : |p| ≤ M) (t0 : 0 ≤ t) (t1 : t ≤ 1)
    (hd : |d - (b - a)| ≤ |b - a| / 2 ^ 53) (hm : Off m (t * d)) (he : |e - (a + m)| ≤ |a + m| / 2 ^ 53)
    (hc : |c - (p - e)| ≤ |p - e| / 2 ^ 53) : |c - (p - (a + t * (b - a)))| ≤ M / 2 ^ 48 + 1 / 2 ^ 248 := by
  have h1 : |b - a| ≤ 2 * M := (abs_sub _ _).trans (by linarith)
  have h2 := abs_near hd
  have h3 : |t * d| ≤ |d| := by
    rw [abs_mul, abs_of_nonneg t0]
    exact mul_le_of_le_one_left (abs_nonneg _) t1
  have h4 := abs_near hm
  have h5 := abs_add_le a m
  have h6 := abs_near he
  have h7 := abs_sub p e
  have h8 : |t * d - t * (b - a)| ≤ |d - (b - a)| := by
    rw [← mul_sub, abs_mul, abs_of_nonneg t0]
    exact mul_le_of_le_one_left (abs_nonneg _) t1
  have h9 : |c - (p - (a + t * (b - a)))| ≤ |c - (p - e)| + (|e - (a + m)| + (|m - t * d| + |t * d - t * (b - a)|)) := by
    have e1 : c - (p - (a + t * (b - a))) = (c - (p - e)) + -((e - (a + m)) + ((m - t * d) + (t * d - t * (b - a)))) := by ring
    rw [e1]
    have b1 := abs_add_le (c - (p - e)) (-((e - (a + m)) + ((m - t * d) + (t * d - t * (b - a)))))
    rw [abs_neg] at b1
    have b2 := abs_add_le (e - (a + m)) ((m - t * d) + (t * d - t * (b - a)))
    have b3 := abs_add_le (m - t * d) (t * d - t * (b - a))
    linarith
  unfold Off at hm
  generalize |c - (p - (a + t * (b - a)))| = x1 at *
  generalize |t * d - t * (b - a)| = x2 at *
  generalize |t * d| = x3 at *
  norm_num at hd hm he hc h2 h4 h6 ⊢
  linarith

/-- A sum of two products. -/
theorem dot_error {a b c d m n s : ℚ} (hm : Off m (a * b)) (hn : Off n (c * d)) (hs : |s - (m + n)| ≤ |m + n| / 2 ^ 53) :
    |s - (a * b + c * d)| ≤ (|a * b| + |c * d|) / 2 ^ 51 + 1 / 2 ^ 248 := by
  have h1 := abs_near hm
  have h2 := abs_near hn
  have h3 := abs_add_le m n
  have h4 : |s - (a * b + c * d)| ≤ |s - (m + n)| + (|m - a * b| + |n - c * d|) := by
    have e1 : s - (a * b + c * d) = (s - (m + n)) + ((m - a * b) + (n - c * d)) := by ring
    rw [e1]
    have b1 := abs_add_le (s - (m + n)) ((m - a * b) + (n - c * d))
    have b2 := abs_add_le (m - a * b) (n - c * d)
    linarith
  unfold Off at hm hn
  generalize |s - (a * b + c * d)| = x1 at *
  generalize |m - a * b| = x2 at *
  generalize |n - c * d| = x3 at *
  generalize hx4 : |a * b| = x4 at *
  generalize hx5 : |c * d| = x5 at *
  have p4 : 0 ≤ x4 := hx4 ▸ abs_nonneg _
  have p5 : 0 ≤ x5 := hx5 ▸ abs_nonneg _
  norm_num at hm hn hs h1 h2 ⊢
  linarith

/-- A product of two differences. -/
theorem prod_error {d v D V : ℚ} (hd : |d - D| ≤ |D| / 2 ^ 53) (hv : |v - V| ≤ |V| / 2 ^ 53) :
    |d * v - D * V| ≤ |D| * |V| / 2 ^ 51 := by
  have e : d * v - D * V = (d - D) * (v - V) + ((d - D) * V + D * (v - V)) := by ring
  rw [e]
  have b1 := abs_add_le ((d - D) * (v - V)) ((d - D) * V + D * (v - V))
  have b2 := abs_add_le ((d - D) * V) (D * (v - V))
  rw [abs_mul] at b1
  rw [abs_mul, abs_mul] at b2
  have c1 : |d - D| * |v - V| ≤ (|D| / 2 ^ 53) * (|V| / 2 ^ 53) := mul_le_mul hd hv (abs_nonneg _) (by positivity)
  have c2 : |d - D| * |V| ≤ (|D| / 2 ^ 53) * |V| := mul_le_mul_of_nonneg_right hd (abs_nonneg _)
  have c3 : |D| * |v - V| ≤ |D| * (|V| / 2 ^ 53) := mul_le_mul_of_nonneg_left hv (abs_nonneg _)
  have p : 0 ≤ |D| * |V| := by positivity
  have e1 : (|D| / 2 ^ 53) * (|V| / 2 ^ 53) = |D| * |V| / 2 ^ 106 := by ring
  have e2 : (|D| / 2 ^ 53) * |V| = |D| * |V| / 2 ^ 53 := by ring
  have e3 : |D| * (|V| / 2 ^ 53) = |D| * |V| / 2 ^ 53 := by ring
  rw [e1] at c1
  rw [e2] at c2
  rw [e3] at c3
  generalize |D| * |V| = Q at *
  norm_num at c1 c2 c3 ⊢
  linarith

/-- The computed sum of two products of differences. -/
theorem dot_total {d v e w D V E W s m n : ℚ} (hd : |d - D| ≤ |D| / 2 ^ 53) (hv : |v - V| ≤ |V| / 2 ^ 53)
    (he : |e - E| ≤ |E| / 2 ^ 53) (hw : |w - W| ≤ |W| / 2 ^ 53) (hm : Off m (d * v)) (hn : Off n (e * w))
    (hs : |s - (m + n)| ≤ |m + n| / 2 ^ 53) :
    |s - (D * V + E * W)| ≤ (|D| * |V| + |E| * |W|) / 2 ^ 49 + 1 / 2 ^ 248 := by
  have h1 := prod_error hd hv
  have h2 := prod_error he hw
  have h3 := dot_error hm hn hs
  have h4 := abs_near h1
  have h5 := abs_near h2
  rw [abs_mul D V] at h4
  rw [abs_mul E W] at h5
  have h6 : |s - (D * V + E * W)| ≤ |s - (d * v + e * w)| + (|d * v - D * V| + |e * w - E * W|) := by
    have e1 : s - (D * V + E * W) = (s - (d * v + e * w)) + ((d * v - D * V) + (e * w - E * W)) := by ring
    rw [e1]
    have b1 := abs_add_le (s - (d * v + e * w)) ((d * v - D * V) + (e * w - E * W))
    have b2 := abs_add_le (d * v - D * V) (e * w - E * W)
    linarith
  have p1 : 0 ≤ |D| * |V| := by positivity
  have p2 : 0 ≤ |E| * |W| := by positivity
  generalize |s - (D * V + E * W)| = x1 at *
  generalize |D| * |V| = x2 at *
  generalize |E| * |W| = x3 at *
  norm_num at h1 h2 h3 h4 h5 ⊢
  linarith

/-- The square of the distance at a parameter that is nearly best. -/
theorem nearly_best {V W D E τ s δ ε r : ℚ} (hr : 0 ≤ r) (hδ : 0 ≤ δ)
    (hs : (V - s * D) ^ 2 + (W - s * E) ^ 2 ≤ r ^ 2)
    (hτ : (τ - s) * (τ * (D ^ 2 + E ^ 2) - (D * V + E * W)) ≤ |τ - s| * ε) (hε : ε ^ 2 ≤ δ ^ 2 * (D ^ 2 + E ^ 2))
    (h0 : D ^ 2 + E ^ 2 = 0 ∨ 0 < D ^ 2 + E ^ 2) : (V - τ * D) ^ 2 + (W - τ * E) ^ 2 ≤ (r + δ) ^ 2 := by
  have key : (V - τ * D) ^ 2 + (W - τ * E) ^ 2 = (V - s * D) ^ 2 + (W - s * E) ^ 2 +
      2 * ((τ - s) * (τ * (D ^ 2 + E ^ 2) - (D * V + E * W))) - (τ - s) ^ 2 * (D ^ 2 + E ^ 2) := by ring
  rw [key]
  generalize hN : D ^ 2 + E ^ 2 = N at *
  have hy : (τ - s) ^ 2 = |τ - s| ^ 2 := (sq_abs _).symm
  rw [hy]
  generalize |τ - s| = y at *
  have hrd : 0 ≤ r * δ := mul_nonneg hr hδ
  have bound : 2 * (y * ε) - y ^ 2 * N ≤ δ ^ 2 := by
    rcases h0 with h0 | h0
    · rw [h0] at hε ⊢
      have : ε = 0 := by nlinarith [sq_nonneg ε]
      rw [this]
      nlinarith [sq_nonneg δ]
    · -- complete the square
      have h1 : 0 ≤ (y * N - ε) ^ 2 := sq_nonneg _
      have h2 : (2 * (y * ε) - y ^ 2 * N) * N ≤ δ ^ 2 * N := by nlinarith
      exact le_of_mul_le_mul_right h2 h0
  nlinarith

theorem sum_sq (D E : ℚ) : (|D| + |E|) ^ 2 ≤ 4 * (D ^ 2 + E ^ 2) := by
  rw [← sq_abs D, ← sq_abs E]
  generalize |D| = x
  generalize |E| = y
  nlinarith [sq_nonneg (x - y), sq_nonneg x, sq_nonneg y]

/-- The same, with the bounds of the code. -/
theorem nearly_best' {M V W D E τ s r : ℚ} (hM : 0 ≤ M) (hr : 0 ≤ r) (grain : (D = 0 ∧ E = 0) ∨ 1 / 2 ^ 149 ≤ |D| + |E|)
    (hs : (V - s * D) ^ 2 + (W - s * E) ^ 2 ≤ r ^ 2)
    (hτ : (τ - s) * (τ * (D * D + E * E) - (D * V + E * W)) ≤ |τ - s| * ((|D| + |E|) * M / 2 ^ 45 + 1 / 2 ^ 244)) :
    (V - τ * D) ^ 2 + (W - τ * E) ^ 2 ≤ (r + (M / 2 ^ 44 + 1 / 2 ^ 94)) ^ 2 := by
  have hδ : (0 : ℚ) ≤ M / 2 ^ 44 + 1 / 2 ^ 94 := by positivity
  rcases grain with ⟨rfl, rfl⟩ | g
  · simp only [mul_zero] at hs ⊢
    exact hs.trans (pow_le_pow_left₀ hr (by linarith) 2)
  · rw [← sq, ← sq] at hτ
    have hK := sum_sq D E
    have hpos : 0 < D ^ 2 + E ^ 2 := by
      have h1 : 0 < |D| + |E| := lt_of_lt_of_le (by positivity) g
      have h2 : 0 < (|D| + |E|) ^ 2 := by positivity
      linarith
    refine nearly_best hr hδ hs hτ ?_ (Or.inr hpos)
    generalize |D| + |E| = K at *
    have K0 : 0 ≤ K := le_trans (by positivity) g
    have hε : K * M / 2 ^ 45 + 1 / 2 ^ 244 ≤ K * (M / 2 ^ 45 + 1 / 2 ^ 95) := by
      have : (1 : ℚ) / 2 ^ 244 ≤ K / 2 ^ 95 := by
        have e : (1 : ℚ) / 2 ^ 244 = 1 / 2 ^ 149 / 2 ^ 95 := by norm_num
        rw [e]
        exact div_le_div_of_nonneg_right g (by positivity)
      have e : K * (M / 2 ^ 45 + 1 / 2 ^ 95) = K * M / 2 ^ 45 + K / 2 ^ 95 := by ring
      rw [e]
      linarith
    calc (K * M / 2 ^ 45 + 1 / 2 ^ 244) ^ 2 ≤ (K * (M / 2 ^ 45 + 1 / 2 ^ 95)) ^ 2 := pow_le_pow_left₀ (by positivity) hε 2
      _ = K ^ 2 * (M / 2 ^ 45 + 1 / 2 ^ 95) ^ 2 := by ring
      _ ≤ 4 * (D ^ 2 + E ^ 2) * (M / 2 ^ 45 + 1 / 2 ^ 95) ^ 2 := mul_le_mul_of_nonneg_right hK (sq_nonneg _)
      _ = (M / 2 ^ 44 + 1 / 2 ^ 94) ^ 2 * (D ^ 2 + E ^ 2) := by ring

end GP
