import Verif.Spec.Reverse
import Verif.Model.Outline
/-! Helper lemmas on reversal. -/
open Fl
namespace GP
variable {PD : Type}
open Spec

theorem swap_swapped (p : Point PD) : p.swapHandles = swapped p := rfl
@[simp] theorem swapped_swapped (p : Point PD) : swapped (swapped p) = p := rfl

theorem typeOfHandles_eq (a b : Handle) : typeOfHandles a b = typeByHandles a b := by
  cases a <;> cases b <;> simp [typeOfHandles, typeByHandles]

/-- Not an open contour in the sense of the reversal code. -/
theorem toReversed_closed {p : Point PD} {rest : Contour PD} (h : p.ptype ≠ .move ∨ rest = []) :
    toReversed (p :: rest) = .ok (swapped p :: rest.reverse.map swapped) := by
  have : (p.ptype == .move && decide (1 < (p :: rest).length)) = false := by
    rcases h with h | h
    · simp [h]
    · simp [h]
  unfold toReversed
  simp only [this, Bool.not_false, if_true, Bool.false_eq_true, if_false]
  rfl

/-- An open contour of at least two points. -/
theorem toReversed_open {p z : Point PD} {mid : Contour PD} (h : p.ptype = .move) :
    toReversed (p :: mid ++ [z]) =
      .ok ({ swapped z with ptype := .move } :: mid.reverse.map swapped ++
        [{ swapped p with ptype := typeByHandles ((mid ++ [z]).head (by simp)).b p.a }]) := by
  have hop : (p.ptype == .move && decide (1 < (p :: (mid ++ [z])).length)) = true := by simp [h]
  unfold toReversed
  simp only [List.cons_append, hop, Bool.not_true, Bool.false_eq_true, if_false, if_true]
  have hrev : (p :: (mid ++ [z])).reverse.map Point.swapHandles =
      swapped z :: mid.reverse.map swapped ++ [swapped p] := by
    simp [swap_swapped, List.map_reverse]
  rw [hrev]
  simp only [List.cons_append, List.length_cons, List.length_append, List.length_map, List.length_reverse,
    List.length_nil, Nat.zero_add, List.modify_zero_cons]
  cases mid with
  | nil =>
    simp [typeOfHandles_eq]
    rfl
  | cons q mid =>
    have hn : mid.length + 1 + 1 + 1 ≥ 3 := by omega
    have e1 : mid.length + 1 + 1 + 1 - 2 = mid.length + 1 := by omega
    have e2 : mid.length + 1 + 1 + 1 - 1 = mid.length + 1 + 1 := by omega
    simp only [List.length_cons]
    rw [if_pos hn, e1, e2]
    have hl : ((q :: mid).reverse.map swapped ++ [swapped p]) = mid.reverse.map swapped ++ [swapped q, swapped p] := by simp
    rw [hl]
    have g1 : ({ swapped z with ptype := PointType.move } :: (mid.reverse.map swapped ++ [swapped q, swapped p]))[mid.length + 1]? =
        some (swapped q) := by
      rw [List.getElem?_cons_succ, List.getElem?_append_right (by simp)]
      simp
    have g2 : ({ swapped z with ptype := PointType.move } :: (mid.reverse.map swapped ++ [swapped q, swapped p]))[mid.length + 1 + 1]? =
        some (swapped p) := by
      rw [List.getElem?_cons_succ, List.getElem?_append_right (by simp)]
      simp
    rw [g1, g2]
    simp only []
    rw [typeOfHandles_eq, List.modify_succ_cons]
    congr 2
    have : mid.reverse.map swapped ++ [swapped q, swapped p] = (mid.reverse.map swapped ++ [swapped q]) ++ [swapped p] := by simp
    rw [this]
    have hlen : mid.length + 1 = (mid.reverse.map swapped ++ [swapped q]).length := by simp
    rw [hlen]
    have : ∀ (L : List (Point PD)) (a : Point PD) (f), (L ++ [a]).modify L.length f = L ++ [f a] := by
      intro L a f
      induction L with
      | nil => rfl
      | cons b L ih => simp [ih]
    rw [this]
    simp [swapped]

theorem map_zip_reverse {α β : Type} (l : List α) (m : List β) (h : l.length = m.length) :
    (l.zip m).reverse = l.reverse.zip m.reverse := by
  rw [List.zip_eq_zipWith, List.zip_eq_zipWith, List.reverse_zipWith h]

end GP
