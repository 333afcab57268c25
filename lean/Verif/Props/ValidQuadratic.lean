import Verif.Props.Valid
/-!
# Valid points of quadratic contours (C139)
-/
open Fl
namespace GP
namespace Spec

/-- The point half-way between the file points has clean coordinates, whether the second is taken as it is in the file or from the
contour. -/
def HalfwayClean (mid : IOF → IOF → IOF) (x y : GlifPoint) : Prop :=
  (CleanNum (mid x.x y.x).toF32 ∧ CleanNum (mid x.y y.y).toF32) ∧
    CleanNum (mid x.x (IOF.ofF32 y.x.toF32)).toF32 ∧ CleanNum (mid x.y (IOF.ofF32 y.y.toF32)).toF32

end Spec
open Spec
variable {PD D : Type}

/-- What is kept while the points of a quadratic contour are read. -/
structure QuadKept (mid : IOF → IOF → IOF) (l : List GlifPoint) (st : Contour PD × List GlifPoint) : Prop where
  points : ∀ p ∈ st.1, (Clean p ∧ p.ptype ≠ .undefined ∧ p.data = none)
  queue : ∀ x ∈ st.2, x ∈ l

theorem clean_ofGp {x : GlifPoint} (h : x.isValid = true) :
    Clean (Point.ofGp x : Point PD) ∧ (Point.ofGp x : Point PD).ptype ≠ .undefined ∧ (Point.ofGp x : Point PD).data = none :=
  ⟨⟨(clean_gp h).1, (clean_gp h).2, fun _ _ e => (nomatch e), fun _ _ e => (nomatch e)⟩, (by rw [C54_file_point_iff] at h; exact h.1), rfl⟩

theorem quadStep_kept {mid : IOF → IOF → IOF} {l : List GlifPoint} (h : ∀ x ∈ l, x.isValid = true)
    (hm : ∀ x ∈ l, ∀ y ∈ l, HalfwayClean mid x y) {st : Contour PD × List GlifPoint} {gp : GlifPoint} (hs : QuadKept mid l st) (hg : gp ∈ l) :
    QuadKept mid l (quadStep mid st gp) := by
  have hst : ∀ g ∈ (if gp.ptype = .offcurve then st.2 ++ [gp] else st.2), g ∈ l := by
    split
    · intro g h
      rcases List.mem_append.1 h with h | h
      · exact hs.queue g h
      · rw [List.mem_singleton.1 h]; exact hg
    · exact hs.queue
  unfold quadStep
  simp only []
  generalize (if gp.ptype = .offcurve then st.2 ++ [gp] else st.2) = stack at hst
  have hadd : ∀ c : Contour PD, (∀ p ∈ c, Clean p ∧ p.ptype ≠ .undefined ∧ p.data = none) →
      ∀ p ∈ st.1 ++ c, Clean p ∧ p.ptype ≠ .undefined ∧ p.data = none := by
    intro c hc p hp
    rcases List.mem_append.1 hp with hp | hp
    · exact hs.points p hp
    · exact hc p hp
  split
  · next h1 h2 =>
    have m1 : h1 ∈ l := hst h1 (by simp)
    have m2 : h2 ∈ l := hst h2 (by simp)
    refine ⟨hadd _ fun p hp => ?_, fun g hg => by rw [List.mem_singleton.1 hg]; exact m2⟩
    rcases List.mem_cons.1 hp with rfl | hp
    · exact clean_ofGp (h _ m1)
    · rw [List.mem_singleton.1 hp]
      have := (hm _ m1 _ m2).1
      exact ⟨⟨this.1, this.2, fun _ _ e => (nomatch e), fun _ _ e => (nomatch e)⟩, fun e => (nomatch e), rfl⟩
  · split
    · split
      · next _ k rest _ =>
        refine ⟨hadd _ fun p hp => ?_, fun g hg => hst g (by simp [hg])⟩
        rcases List.mem_cons.1 hp with rfl | hp
        · exact clean_ofGp (h _ (hst k (by simp)))
        · rw [List.mem_singleton.1 hp]; exact clean_ofGp (h _ hg)
      · exact ⟨hadd _ fun p hp => by rw [List.mem_singleton.1 hp]; exact clean_ofGp (h _ hg), by simp⟩
    · exact ⟨hs.points, hst⟩

theorem quadStep_heads (mid : IOF → IOF → IOF) (l : GlifContour) {p : Point PD} {c : Contour PD} {s : List GlifPoint} :
    ∃ c', (l.foldl (quadStep mid) (p :: c, s)).1 = p :: c' := by
  induction l generalizing c s with
  | nil => exact ⟨c, rfl⟩
  | cons g l ih =>
    rw [List.foldl_cons]
    have : ∃ c' s', quadStep mid (p :: c, s) g = (p :: c', s') := by
      unfold quadStep
      simp only []
      split
      · exact ⟨_, _, rfl⟩
      · split
        · split <;> exact ⟨_, _, rfl⟩
        · exact ⟨_, _, rfl⟩
    obtain ⟨c', s', e⟩ := this
    rw [e]
    exact ih

/-- **C139**: a contour of quadratic curves is read from valid points of a file as valid points with clean coordinates, if the points
half-way between its points are clean. -/
theorem C139_quadratic (validData : PD → Bool) (mid : IOF → IOF → IOF) {g : GlifPoint} {gc : List GlifPoint} {c : Contour PD}
    (h : ∀ x ∈ g :: gc, x.isValid = true) (ht : g.ptype = .qcurve) (hm : ∀ x ∈ g :: gc, ∀ y ∈ g :: gc, HalfwayClean mid x y)
    (hc : contourOfGlif mid (g :: gc) = .ok c) : AllClean c ∧ AllValid validData c := by
  have hf : ∀ (l : GlifContour) (st : Contour PD × List GlifPoint), (∀ x ∈ l, x ∈ g :: gc) → QuadKept mid (g :: gc) st →
      QuadKept mid (g :: gc) (l.foldl (quadStep mid) st) := by
    intro l
    induction l with
    | nil => exact fun st _ h => h
    | cons x l ih => exact fun st hl hs => ih _ (fun y hy => hl y (by simp [hy])) (quadStep_kept h hm hs (hl x (by simp)))
  have hk := hf (g :: gc) ([], []) (fun x hx => hx) ⟨by simp, by simp⟩
  obtain ⟨c', hhead⟩ : ∃ c', ((g :: gc).foldl (quadStep mid) (([], []) : Contour PD × List GlifPoint)).1 = Point.ofGp g :: c' := by
    rw [List.foldl_cons, show quadStep (PD := PD) mid ([], []) g = ([Point.ofGp g], []) by simp [quadStep, ht]]
    exact quadStep_heads mid gc
  have key : ∀ p ∈ c, Clean p ∧ p.ptype ≠ .undefined ∧ p.data = none := by
    unfold contourOfGlif at hc
    simp only [ht] at hc
    cases hc
    unfold quadraticContour
    simp only []
    split
    · next h1 _ h2 _ e1 e2 =>
      intro p hp
      rcases List.mem_append.1 hp with hp | hp
      · exact hk.points p hp
      · have m1 : h1 ∈ g :: gc := hk.queue h1 (by rw [e1]; simp)
        rcases List.mem_cons.1 hp with rfl | hp
        · exact clean_ofGp (h _ m1)
        · rw [List.mem_singleton.1 hp]
          rw [hhead] at e2
          cases e2
          have := (hm _ m1 g (by simp)).2
          refine ⟨⟨this.1, this.2, fun _ _ e => (nomatch e), fun _ _ e => (nomatch e)⟩, ?_, rfl⟩
          show (if _ then PointType.qcurve else .qclose) ≠ _
          split <;> simp
    · exact hk.points
  exact ⟨fun p hp => ⟨(key p hp).1, (key p hp).2.1⟩, fun p hp => valid_of_clean validData (key p hp).1 (key p hp).2.1 (by simp [(key p hp).2.2])⟩

/-- Two points and a half-way computation that meet the hypotheses, with a point added half-way back. -/
example : ∃ (g : GlifPoint) (gc : List GlifPoint) (c : Contour Unit), g.ptype = .qcurve ∧ (∀ x ∈ g :: gc, x.isValid = true) ∧
    (∀ x ∈ g :: gc, ∀ y ∈ g :: gc, HalfwayClean (fun a _ => a) x y) ∧ contourOfGlif (fun a _ => a) (g :: gc) = .ok c ∧ c.length = 3 := by
  refine ⟨{ x := .int 0 (by decide), y := .int 0 (by decide), ptype := .qcurve }, [{ x := .int 4 (by decide), y := .int 8 (by decide), ptype := .offcurve }],
    _, rfl, by decide +kernel, ?_, rfl, rfl⟩
  intro x hx y hy
  have : ∀ x : GlifPoint, x ∈ ([{ x := .int 0 (by decide), y := .int 0 (by decide), ptype := .qcurve },
      { x := .int 4 (by decide), y := .int 8 (by decide), ptype := .offcurve }] : List GlifPoint) → CleanNum x.x.toF32 ∧ CleanNum x.y.toF32 := by
    intro x hx
    simp only [List.mem_cons, List.not_mem_nil, or_false] at hx
    rcases hx with rfl | rfl <;> exact ⟨⟨by decide +kernel, by decide +kernel⟩, by decide +kernel, by decide +kernel⟩
  exact ⟨this x hx, this x hx⟩

end GP
