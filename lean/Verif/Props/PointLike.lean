import Verif.Model.PointLike
import Verif.Spec.PointLike
import Verif.Props.MfekSkia
import Verif.Props.Coefficients
/-!
# Places of points of the several kinds (C125)
-/
open Fl
namespace GP
open Spec
variable {PD : Type}

theorem finite_ofInt32 {i : Int} (h : i.natAbs ≤ 2 ^ 31) : (Flt.ofInt b32 i).isFinite = true := by
  have hle : b32.round i.natAbs 1 ≤ 158 * 2 ^ 23 := by
    apply round_le_of b32_p2 (by decide)
    rw [show b32.val (158 * 2 ^ 23) = 2 ^ 31 * 2 ^ b32.u by decide +kernel, Nat.mul_one]
    exact Nat.mul_le_mul_right _ h
  show decide (b32.round i.natAbs 1 < b32.inf) = true
  rw [decide_eq_true_eq]
  exact lt_of_le_of_lt hle (by decide)

/-- An `i32` is an `f32` exactly if it has no more than 24 bits, zeros at the end apart. -/
theorem single_iff {i : Int} (hi : i.natAbs ≤ 2 ^ 31) : F32.to64 (Flt.ofInt b32 i) = Flt.ofInt b64 i ↔ Bits24 i := by
  have hfin := finite_ofInt32 hi
  have h64 : Exact (Flt.ofInt b64 i) (i * 2 ^ b64.u) := ofInt_exact64 (Nat.le_trans hi (by decide))
  constructor
  · intro e
    have hv := to64_exact (Exact.of_finite hfin)
    rw [e] at hv
    have hv' := hv.2.symm.trans h64.2
    rw [show b64.u = 149 + 925 from rfl, Int.pow_add, ← Int.mul_assoc] at hv'
    have hv := Int.eq_of_mul_eq_mul_right (by positivity) hv'
    obtain ⟨s, k, hk, e2, hkl⟩ := finite_num hfin
    rw [e2] at hv
    have hn := congrArg Int.natAbs hv
    rw [sval_natAbs, Int.natAbs_mul, Int.natAbs_pow] at hn
    change b32.val k = i.natAbs * 2 ^ 149 at hn
    unfold Fmt.val at hn
    split at hn
    · rename_i hlt
      have : i.natAbs = 0 := by
        by_contra h0
        have h1 : 2 ^ 149 ≤ i.natAbs * 2 ^ 149 := Nat.le_mul_of_pos_left _ (by omega)
        rw [← hn] at h1
        have : k < 2 ^ 149 := Nat.lt_of_lt_of_le hlt (Nat.pow_le_pow_right (by decide) (by decide))
        omega
      exact ⟨0, 0, by decide, by omega⟩
    · generalize hM : k % 2 ^ (b32.p - 1) + 2 ^ (b32.p - 1) = M at hn
      generalize k / 2 ^ (b32.p - 1) - 1 = E at hn
      have hM' : M ≤ 2 ^ 24 := by
        have := Nat.mod_lt k (show 0 < 2 ^ (b32.p - 1) by decide)
        have e3 : 2 ^ (b32.p - 1) + 2 ^ (b32.p - 1) = 2 ^ 24 := by decide
        omega
      by_cases hE : 149 ≤ E
      · obtain ⟨d, rfl⟩ := Nat.exists_eq_add_of_le hE
        rw [Nat.pow_add, Nat.mul_comm (2 ^ 149), ← Nat.mul_assoc] at hn
        have h2 := Nat.eq_of_mul_eq_mul_right (by positivity) hn
        rcases Int.natAbs_eq i with hs | hs
        · exact ⟨M, d, by simpa using hM', by rw [hs, ← h2]; push_cast; rfl⟩
        · exact ⟨-M, d, by simpa using hM', by rw [hs, ← h2]; push_cast; rw [Int.neg_mul]⟩
      · obtain ⟨d, hd⟩ := Nat.exists_eq_add_of_le (show E ≤ 149 by omega)
        rw [hd, Nat.pow_add, Nat.mul_comm (2 ^ E), ← Nat.mul_assoc] at hn
        have h2 := Nat.eq_of_mul_eq_mul_right (by positivity) hn
        refine ⟨i, 0, ?_, by simp⟩
        have : i.natAbs ≤ i.natAbs * 2 ^ d := Nat.le_mul_of_pos_right _ (by positivity)
        omega
  · rintro ⟨m, k, hm, rfl⟩
    obtain ⟨j, hj⟩ := Fmt.exists_val b32 b32_p (149 + k) m.natAbs hm
    have hj2 : b32.val j = (m * 2 ^ k).natAbs * 2 ^ 149 := by
      rw [hj, Int.natAbs_mul, Int.natAbs_pow, Nat.pow_add, Nat.mul_comm (2 ^ 149), ← Nat.mul_assoc]
      rfl
    have hjl : j < b32.inf := by
      apply (Fmt.val_lt_iff b32 b32_p).1
      rw [hj2, b32_val_inf]
      calc (m * 2 ^ k).natAbs * 2 ^ 149 ≤ 2 ^ 31 * 2 ^ 149 := Nat.mul_le_mul_right _ hi
        _ = 2 ^ (31 + 149) := (Nat.pow_add ..).symm
        _ < 2 ^ 277 := Nat.pow_lt_pow_right (by decide) (by decide)
    have hz : Exact (.num (decide (m * 2 ^ k < 0)) j (Nat.le_of_lt hjl) : F32) ((m * 2 ^ k) * 2 ^ b32.u) := by
      refine ⟨by simp [Flt.isFinite, hjl], ?_⟩
      simp only [Flt.sval]
      rw [hj2]
      generalize m * 2 ^ k = i
      by_cases h : i < 0
      · simp only [h, decide_true, if_true]
        push_cast
        rw [abs_of_neg h, Int.neg_mul, Int.neg_neg]
        rfl
      · simp only [h, decide_false, Bool.false_eq_true, if_false]
        push_cast
        rw [abs_of_nonneg (Int.not_lt.1 h)]
        rfl
    have h32 := to64_exact (ofInt_exact b32_p hz)
    rw [Int.mul_assoc, ← Int.pow_add, show b32.u + 925 = b64.u from rfl] at h32
    have hn := normZero_eq_of_sval b64_p h32 h64
    obtain ⟨s, k1, hk1, e1, hkl1⟩ := finite_num hfin
    have e1' : Flt.num (decide (m * 2 ^ k < 0)) (b32.round (m * 2 ^ k).natAbs 1) (b32.round_le _ _) = Flt.num s k1 hk1 := e1
    rw [Flt.num.injEq] at e1'
    obtain ⟨k2, hk2, e2⟩ : ∃ k' h', F32.to64 (.num s k1 hk1) = .num s k' h' := cast_sign hkl1
    have e3 : Flt.ofInt b64 (m * 2 ^ k) = .num s (b64.round (m * 2 ^ k).natAbs 1) (b64.round_le _ _) := by rw [← e1'.1]; rfl
    rw [e1, e2, e3] at hn ⊢
    exact normZero_sign hn

theorem iof_single_iff (x : IOF) : x.toF32.to64 = x.toF64 ↔ IsSingle x := by
  cases x with
  | float f => exact ⟨fun _ => trivial, fun _ => rfl⟩
  | int i h =>
    have := (IOF.i32ok_iff i).1 h
    exact single_iff (by omega)

/-- **C125.** A point, the file point made from it, and the kurbo points made from either are at the same place; a file
point made from such a kurbo point is there, too, and the point made from this again. -/
theorem C125_points (p : Point PD) (t : PointType) :
    p.kpoint = (p.x.to64, p.y.to64) ∧ (GlifPoint.ofPoint p).kpoint = p.kpoint ∧
    (GlifPoint.ofKurbo p.kpoint t).kpoint = p.kpoint ∧
    (Point.ofGlifPoint (GlifPoint.ofKurbo p.kpoint t) : Point PD).x = p.x ∧
    (Point.ofGlifPoint (GlifPoint.ofKurbo p.kpoint t) : Point PD).y = p.y := by
  have h1 : p.likeX.toF64.to32 = p.x := to32_to64 _
  have h2 : p.likeY.toF64.to32 = p.y := to32_to64 _
  refine ⟨rfl, rfl, ?_, h1, h2⟩
  show (F32.to64 p.likeX.toF64.to32, F32.to64 p.likeY.toF64.to32) = _
  rw [h1, h2]
  rfl

/-- **C125**, exactly: the point made from a file point is where the file point is exactly if the integers among the
coordinates have no more than 24 bits, zeros at the end apart. -/
theorem C125_exact (g : GlifPoint) :
    (Point.ofGlifPoint g : Point PD).kpoint = g.kpoint ↔ IsSingle g.x ∧ IsSingle g.y := by
  rw [← iof_single_iff, ← iof_single_iff]
  show (_, _) = (_, _) ↔ _
  rw [Prod.mk.injEq]
  rfl

/-- **C125 is false of the code**: a file point at `x = 16777217` becomes a point elsewhere. -/
theorem C125_false : ∃ g : GlifPoint, (Point.ofGlifPoint g : Point PD).kpoint ≠ g.kpoint := by
  refine ⟨{ x := .int 16777217, y := .int 0, smooth := false, name := none, ptype := .line }, fun e => ?_⟩
  have : F32.to64 (Flt.ofInt b32 16777217) = Flt.ofInt b64 16777217 := congrArg Prod.fst e
  exact absurd this (by decide +kernel)

/-- **C125**, what holds: the coordinates used in fonts are kept. -/
theorem C125_partial (g : GlifPoint) (hx : ∀ i h, g.x = .int i h → i.natAbs ≤ 2 ^ 24) (hy : ∀ i h, g.y = .int i h → i.natAbs ≤ 2 ^ 24) :
    (Point.ofGlifPoint g : Point PD).kpoint = g.kpoint := by
  rw [C125_exact]
  have key : ∀ x : IOF, (∀ i h, x = .int i h → i.natAbs ≤ 2 ^ 24) → IsSingle x := by
    intro x h
    cases x with
    | float f => trivial
    | int i hi => exact ⟨i, 0, h i hi rfl, by simp⟩
  exact ⟨key _ hx, key _ hy⟩

/-- **C125**, setters: the coordinate that is set is read back, as it was from a file point, as an `f32` from a point, there exactly if
it is an `f32`; setting what is read changes nothing, nor does setting one coordinate change anything else. -/
theorem C125_set (p : Point PD) (g : GlifPoint) (v : IOF) :
    (p.setX v = { p with x := v.toF32 } ∧ p.setY v = { p with y := v.toF32 } ∧ p.setX p.likeX = p ∧ p.setY p.likeY = p) ∧
    ((p.setX v).likeX.toF64 = v.toF64 ↔ IsSingle v) ∧ ((p.setY v).likeY.toF64 = v.toF64 ↔ IsSingle v) ∧
    ((g.setX v).x = v ∧ (g.setY v).y = v ∧ (g.setX v).setX g.x = g ∧ (g.setY v).setY g.y = g) :=
  ⟨⟨rfl, rfl, rfl, rfl⟩, iof_single_iff v, iof_single_iff v, rfl, rfl, rfl, rfl⟩

example : Bits24 (-2147483648) ∧ ¬ Bits24 16777217 := by
  refine ⟨⟨-1, 31, by decide, by decide⟩, fun h => ?_⟩
  rw [← single_iff (by decide)] at h
  exact absurd h (by decide +kernel)

example : ∀ i h, ({ x := .int 100, y := .float Flt.zero, smooth := false, name := none, ptype := .line } : GlifPoint).x = .int i h →
    i.natAbs ≤ 2 ^ 24 := by
  intro i h e
  injection e with e
  subst e
  decide

end GP
