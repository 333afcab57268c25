import Verif.Props.KurboPath
import Mathlib.Analysis.Convex.Segment
import Mathlib.Topology.Order.IntermediateValue
import Mathlib.Topology.Instances.Real.Lemmas
import Mathlib.Topology.Algebra.Polynomial
import Mathlib.Tactic.Linarith
import Mathlib.Tactic.Ring
/-!
# Straight cubic curves (C117)
-/
namespace GP
open Spec

/-- How far along a line a cubic curve is whose inner control points are at its ends. -/
theorem bezier3_along (a b g d t : ℝ) : bezier3 a (a + g * (b - a)) (a + d * (b - a)) b t = a + bezier3 0 g d 1 t * (b - a) := by
  unfold bezier3
  ring

/-- A cubic curve whose inner control points are at its ends runs exactly along the line between them: all its points are
on the line, and every point of the line is on the curve. -/
theorem C117_line (a b c d : ℝ × ℝ) (hc : c = a ∨ c = b) (hd : d = a ∨ d = b) :
    {p : ℝ × ℝ | ∃ t, 0 ≤ t ∧ t ≤ 1 ∧ p = (bezier3 a.1 c.1 d.1 b.1 t, bezier3 a.2 c.2 d.2 b.2 t)} = segment ℝ a b := by
  obtain ⟨g, hg, hc⟩ : ∃ g : ℝ, (g = 0 ∨ g = 1) ∧ c = (a.1 + g * (b.1 - a.1), a.2 + g * (b.2 - a.2)) := by
    rcases hc with rfl | rfl
    · exact ⟨0, .inl rfl, by simp⟩
    · exact ⟨1, .inr rfl, by simp⟩
  obtain ⟨e, he, hd⟩ : ∃ g : ℝ, (g = 0 ∨ g = 1) ∧ d = (a.1 + g * (b.1 - a.1), a.2 + g * (b.2 - a.2)) := by
    rcases hd with rfl | rfl
    · exact ⟨0, .inl rfl, by simp⟩
    · exact ⟨1, .inr rfl, by simp⟩
  subst hc hd
  have hcont : Continuous fun t : ℝ => bezier3 0 g e 1 t := by
    unfold bezier3
    fun_prop
  have h0 : bezier3 0 g e 1 (0 : ℝ) = 0 := by simp [bezier3]
  have h1 : bezier3 0 g e 1 (1 : ℝ) = 1 := by simp [bezier3]
  have hr : ∀ t : ℝ, 0 ≤ t → t ≤ 1 → 0 ≤ bezier3 0 g e 1 t ∧ bezier3 0 g e 1 t ≤ 1 := by
    intro t ht ht'
    have k0 : (0 : ℝ) ≤ 1 - t := by linarith
    have k1 : 0 ≤ 3 * (1 - t) ^ 2 * t := by positivity
    have k2 : 0 ≤ 3 * (1 - t) * t ^ 2 := by positivity
    have k3 : 0 ≤ t ^ 3 := by positivity
    have k4 : 0 ≤ (1 - t) ^ 3 := by positivity
    have hs : (1 - t) ^ 3 + 3 * (1 - t) ^ 2 * t + 3 * (1 - t) * t ^ 2 + t ^ 3 = 1 := by ring
    unfold bezier3
    rcases hg with rfl | rfl <;> rcases he with rfl | rfl <;> constructor <;> linarith
  rw [segment_eq_image']
  ext p
  simp only [Set.mem_ofPred_eq, Set.mem_image, Set.mem_Icc]
  have hpt : ∀ t : ℝ, a + bezier3 0 g e 1 t • (b - a) = (bezier3 a.1 (a.1 + g * (b.1 - a.1)) (a.1 + e * (b.1 - a.1)) b.1 t,
      bezier3 a.2 (a.2 + g * (b.2 - a.2)) (a.2 + e * (b.2 - a.2)) b.2 t) := by
    intro t
    rw [bezier3_along, bezier3_along]
    rfl
  constructor
  · rintro ⟨t, ht, ht', rfl⟩
    exact ⟨_, hr t ht ht', hpt t⟩
  · rintro ⟨s, ⟨hs, hs'⟩, rfl⟩
    have := intermediate_value_Icc (zero_le_one' ℝ) hcont.continuousOn
    rw [h0, h1] at this
    obtain ⟨t, ht, rfl⟩ := this ⟨hs, hs'⟩
    exact ⟨t, ht.1, ht.2, hpt t⟩

example : {p : ℝ × ℝ | ∃ t, 0 ≤ t ∧ t ≤ 1 ∧ p = (bezier3 0 0 10 10 t, bezier3 0 0 5 5 t)} = segment ℝ ((0, 0) : ℝ × ℝ) (10, 5) :=
  C117_line (0, 0) (10, 5) (0, 0) (10, 5) (Or.inl rfl) (Or.inr rfl)

end GP
