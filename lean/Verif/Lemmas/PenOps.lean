import Verif.Spec.PenOps
import Verif.Lemmas.Refigure
import Verif.Lemmas.Index
/-!
# Lemmas on pen operations
-/
open Fl
namespace GP
variable {PD : Type}
open Spec

/-! ## The operations of a closed contour -/

/-- The operation for a point and the next one. -/
def opOf (x : Point PD × Point PD) : PenOp :=
  if x.1.ptype = .line then .lineTo (.ofPoint x.1)
  else .curveTo (.fromHandle x.1 .A) (.fromHandle x.2 .B) (.ofPoint x.2)

/-- Line or curve. -/
def LC (p : Point PD) : Prop := p.ptype = .line ∨ p.ptype = .curve

/-- A closed contour whose types have been figured. -/
structure Figured (r : Contour PD) : Prop where
  two : 2 ≤ r.length
  lc : ∀ p ∈ r, LC p

theorem Figured.closed {r : Contour PD} (h : Figured r) : isOpen r = false := by
  match r, h.two with
  | p :: q :: rest, _ =>
    unfold isOpen
    rcases h.lc p (List.mem_cons_self ..) with e | e <;> simp [e]

theorem penStep_figured {r : Contour PD} (h : Figured r) (ops : List PenOp) (i : Nat) (p q : Point PD)
    (hi : i ≠ 1) (hp : r[i]? = some p) (hq : r[if i = r.length - 1 then 0 else i + 1]? = some q) :
    penStep r ops i p = .ok (ops ++ [opOf (p, q)]) := by
  have hlt : i < r.length := (List.getElem?_eq_some_iff.1 hp).1
  have hm : p ∈ r := List.mem_of_getElem? hp
  unfold penStep opOf
  rcases h.lc p hm with e | e
  · simp [e, hi]
  · rw [e]
    simp only [contourPrevNext_ok h.two hlt, h.closed]
    simp [hq]

theorem penStep_one {r : Contour PD} (h : Figured r) (ops : List PenOp) (hne : ops ≠ []) (p q : Point PD)
    (hp : r[1]? = some p) (hq : r[if 1 = r.length - 1 then 0 else 2]? = some q) :
    penStep r ops 1 p = .ok ((if p.ptype = .line then ops.dropLast else ops) ++ [opOf (p, q)]) := by
  have hlt : 1 < r.length := (List.getElem?_eq_some_iff.1 hp).1
  have hm : p ∈ r := List.mem_of_getElem? hp
  unfold penStep opOf
  rcases h.lc p hm with e | e
  · simp [e, hne]
  · rw [e]
    simp only [contourPrevNext_ok h.two hlt, h.closed]
    simp [hq]

theorem penLoop_figured {r : Contour PD} (h : Figured r) (p0 : Point PD) (h0 : r[0]? = some p0) (l : List (Point PD)) :
    ∀ (ops : List PenOp) (i : Nat), 2 ≤ i → r.drop i = l →
    penLoop r ops i l = .ok (ops ++ (l.zip (l.tail ++ [p0])).map opOf) := by
  induction l with
  | nil => intro ops i _ _; simp [penLoop]
  | cons p l ih =>
    intro ops i hi hd
    have hp : r[i]? = some p := by
      have := congrArg List.head? hd
      rw [List.head?_drop] at this
      exact this
    have hlt : i < r.length := (List.getElem?_eq_some_iff.1 hp).1
    have hd' : r.drop (i + 1) = l := by
      rw [← List.drop_drop, hd]
      rfl
    cases l with
    | nil =>
      have hlen : i + 1 = r.length := by
        have := congrArg List.length hd'
        simp only [List.length_drop, List.length_nil] at this
        omega
      have hq : r[if i = r.length - 1 then 0 else i + 1]? = some p0 := by
        rw [if_pos (by omega), h0]
      rw [penLoop, penStep_figured h ops i p p0 (by omega) hp hq, Out.bind_ok]
      simp [penLoop]
    | cons q l =>
      have hq' : r[i + 1]? = some q := by
        have := congrArg List.head? hd'
        rw [List.head?_drop] at this
        exact this
      have hlt' : i + 1 < r.length := (List.getElem?_eq_some_iff.1 hq').1
      have hq : r[if i = r.length - 1 then 0 else i + 1]? = some q := by
        rw [if_neg (by omega), hq']
      rw [penLoop, penStep_figured h ops i p q (by omega) hp hq, Out.bind_ok, ih _ (i + 1) (by omega) hd']
      simp

/-- The operations between `MoveTo` and `Close`. -/
def midOps (p q : Point PD) (rest : Contour PD) : List PenOp :=
  (if q.ptype = .line then [] else [opOf (p, q)]) ++ ((q :: rest).zip (rest ++ [p])).map opOf

theorem penLoop_closed {p q : Point PD} {rest : Contour PD} (h : Figured (p :: q :: rest)) :
    penLoop (p :: q :: rest) [.moveTo (.ofPoint p)] 0 (p :: q :: rest) =
      .ok (.moveTo (.ofPoint p) :: midOps p q rest) := by
  rw [penLoop, penStep_figured h _ 0 p q (by omega) rfl (by rw [if_neg (by simp)]; rfl), Out.bind_ok]
  have hq : ∀ z, (rest ++ [p]).head? = some z → (p :: q :: rest)[if 1 = (p :: q :: rest).length - 1 then 0 else 2]? = some z := by
    intro z hz
    cases rest with
    | nil => simpa using hz
    | cons a rest => rw [if_neg (by simp)]; simpa using hz
  obtain ⟨z, hz⟩ : ∃ z, (rest ++ [p]).head? = some z := by cases rest <;> exact ⟨_, rfl⟩
  rw [penLoop, penStep_one h _ (by simp) q z rfl (hq z hz), Out.bind_ok,
    penLoop_figured h p rfl rest _ 2 (Nat.le_refl 2) rfl]
  congr 1
  unfold midOps
  have e : (q :: rest).zip (rest ++ [p]) = (q, z) :: rest.zip (rest.tail ++ [p]) := by
    cases rest with
    | nil => cases hz; rfl
    | cons a rest => cases hz; rfl
  rw [e]
  split <;> simp

theorem zip_getLast? {α : Type} (p : α) (l : List α) (m : α) :
    ((m :: l).zip (l ++ [p])).getLast? = (m :: l).getLast?.map fun z => (z, p) := by
  induction l generalizing m with
  | nil => rfl
  | cons a l ih =>
    rw [List.cons_append, List.zip_cons_cons]
    have := ih a
    cases l with
    | nil => rfl
    | cons b l =>
      simp only [List.cons_append, List.zip_cons_cons, List.getLast?_cons_cons] at this ⊢
      exact this

theorem closeLast_closed (p q : Point PD) (rest : Contour PD) :
    closeLast p (.moveTo (.ofPoint p) :: midOps p q rest) = .ok (.moveTo (.ofPoint p) :: midOps p q rest) := by
  have hl : (PenOp.moveTo (.ofPoint p) :: midOps p q rest).getLast? = (q :: rest).getLast?.map fun z => opOf (z, p) := by
    unfold midOps
    rw [← List.cons_append, List.getLast?_append, List.getLast?_map, zip_getLast?]
    cases hz : (q :: rest).getLast? with
    | none => simp at hz
    | some z => rfl
  obtain ⟨z, hz⟩ : ∃ z, (q :: rest).getLast? = some z := by
    cases hz : (q :: rest).getLast? with
    | none => simp at hz
    | some z => exact ⟨z, rfl⟩
  rw [hz, Option.map_some] at hl
  unfold closeLast
  rw [hl]
  unfold opOf at hl ⊢
  simp only at hl ⊢
  by_cases hzl : z.ptype = .line
  · simp [hzl]
  · rw [if_neg hzl] at hl ⊢
    simp only
    congr 1
    obtain ⟨pre, hpre⟩ := List.getLast?_eq_some_iff.1 hl
    rw [hpre]
    simp

/-- The operations of a closed contour. -/
theorem intoPenOperations_closed {c : Contour PD} (hc : isClosed c = true) {p q : Point PD} {rest : Contour PD}
    (hr : refigure c = p :: q :: rest) (h : Figured (p :: q :: rest)) :
    intoPenOperations c = .ok (.moveTo (.ofPoint p) :: midOps p q rest ++ [.close]) := by
  unfold intoPenOperations
  simp only [hc, hr, if_true, List.head?_cons, Out.unwrap_some, Out.bind_ok, penLoop_closed h]
  obtain ⟨z, hz⟩ : ∃ z, (p :: q :: rest).getLast? = some z := by
    cases hz : (p :: q :: rest).getLast? with
    | none => simp at hz
    | some z => exact ⟨z, rfl⟩
  rw [hz]
  simp only [Out.unwrap_some, Out.bind_ok]
  split
  · rw [closeLast_closed]; rfl
  · rfl

theorem typeByHandles_lc (a b : Handle) : typeByHandles a b = .line ∨ typeByHandles a b = .curve := by
  unfold typeByHandles
  split <;> simp

theorem zipWith_mem {α β γ : Type} {f : α → β → γ} {l : List α} {m : List β} {x : γ} (hx : x ∈ List.zipWith f l m) :
    ∃ a b, x = f a b := by
  induction l generalizing m with
  | nil => cases hx
  | cons a l ih =>
    cases m with
    | nil => cases hx
    | cons b m =>
      rcases List.mem_cons.1 hx with rfl | hx
      · exact ⟨a, b, rfl⟩
      · exact ih hx

/-- Refiguring a closed contour leaves lines and curves. -/
theorem refigure_closed {c : Contour PD} (hc : isClosed c = true) :
    ∃ p q rest, refigure c = p :: q :: rest ∧ Figured (p :: q :: rest) := by
  match c with
  | [] => simp [isClosed, isOpen] at hc
  | [p] => simp [isClosed, isOpen] at hc
  | p :: q :: rest =>
    have hm : p.ptype ≠ .move := by simpa [isClosed, isOpen] using hc
    rw [refigure_eq]
    refine ⟨_, _, _, rfl, ⟨by simp, ?_⟩⟩
    intro x hx
    rw [if_neg hm] at hx
    rcases List.mem_cons.1 hx with rfl | hx
    · exact typeByHandles_lc _ _
    rcases List.mem_cons.1 hx with rfl | hx
    · exact typeByHandles_lc _ _
    · obtain ⟨o, r, rfl⟩ := zipWith_mem hx
      exact typeByHandles_lc _ _

end GP
