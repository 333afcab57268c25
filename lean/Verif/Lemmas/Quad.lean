import Verif.Lemmas.ContourIO2
/-! Helper lemmas on the quadratic reader. -/
open Fl
namespace GP
variable {PD : Type}
open Spec

/-- A point without handles. -/
def Bare (p : Point PD) : Prop := p.a = .colocated ∧ p.b = .colocated

theorem bare_ofGp (g : GlifPoint) : Bare (Point.ofGp (PD := PD) g) := ⟨rfl, rfl⟩

/-- Points that one step may add. -/
def QAdded (t : PointType) (p : Point PD) : Prop :=
  Bare p ∧ (p.ptype = .qcurve ∨ p.ptype = .offcurve ∨ p.ptype = t)

theorem quadStep_inv (mid : IOF → IOF → IOF) (st : Contour PD × List GlifPoint) (gp : GlifPoint)
    (h1 : st.2.length ≤ 1) (h2 : ∀ q ∈ st.2, q.ptype = .offcurve) :
    ∃ more, quadStep mid st gp = (st.1 ++ more, if gp.ptype = .offcurve then [gp] else []) ∧
      (∀ p ∈ more, QAdded gp.ptype p) ∧ (gp.ptype ≠ .offcurve → Point.ofGp gp ∈ more) := by
  obtain ⟨c, s⟩ := st
  cases s with
  | nil =>
    by_cases ho : gp.ptype = .offcurve
    · refine ⟨[], ?_, by simp, fun h => absurd ho h⟩
      simp [quadStep, ho]
    · refine ⟨[Point.ofGp gp], ?_, ?_, by simp⟩
      · simp [quadStep, ho]
      · intro p hp
        rw [List.mem_singleton] at hp
        subst hp
        exact ⟨bare_ofGp _, Or.inr (Or.inr rfl)⟩
  | cons h t =>
    obtain rfl : t = [] := by
      cases t with
      | nil => rfl
      | cons _ _ => simp at h1
    have hh := h2 h List.mem_cons_self
    by_cases ho : gp.ptype = .offcurve
    · let q : Point PD :=
        { x := (mid h.x gp.x).toF32, y := (mid h.y gp.y).toF32, ptype := .qcurve, name := gp.name }
      refine ⟨[Point.ofGp h, q], ?_, ?_, fun h => absurd ho h⟩
      · simp [quadStep, ho, q]
      · intro p hp
        rcases List.mem_cons.1 hp with rfl | hp
        · exact ⟨bare_ofGp _, Or.inr (Or.inl hh)⟩
        · rw [List.mem_singleton] at hp
          subst hp
          exact ⟨⟨rfl, rfl⟩, Or.inl rfl⟩
    · refine ⟨[Point.ofGp h, Point.ofGp gp], ?_, ?_, by simp⟩
      · simp [quadStep, ho]
      · intro p hp
        rcases List.mem_cons.1 hp with rfl | hp
        · exact ⟨bare_ofGp _, Or.inr (Or.inl hh)⟩
        · rw [List.mem_singleton] at hp
          subst hp
          exact ⟨bare_ofGp _, Or.inr (Or.inr rfl)⟩

/-- The queue of off-curve points after reading `gc`, if it was `s` before. -/
def quadQueue (s : List GlifPoint) (gc : List GlifPoint) : List GlifPoint :=
  match gc.getLast? with
  | none => s
  | some g => if g.ptype = .offcurve then [g] else []

theorem quadFold_inv (mid : IOF → IOF → IOF) (gc : List GlifPoint) : ∀ (st : Contour PD × List GlifPoint)
    (_ : st.2.length ≤ 1) (_ : ∀ q ∈ st.2, q.ptype = .offcurve),
    ∃ more, gc.foldl (quadStep mid) st = (st.1 ++ more, quadQueue st.2 gc) ∧
      (∀ p ∈ more, Bare p ∧ (p.ptype = .qcurve ∨ p.ptype = .offcurve ∨ ∃ g ∈ gc, p.ptype = g.ptype)) ∧
      (∀ g ∈ gc, g.ptype ≠ .offcurve → Point.ofGp g ∈ more) := by
  induction gc with
  | nil => intro st _ _; exact ⟨[], by simp [quadQueue], by simp, by simp⟩
  | cons gp gc ih =>
    intro st h1 h2
    obtain ⟨m1, e1, a1, o1⟩ := quadStep_inv mid st gp h1 h2
    rw [List.foldl_cons, e1]
    obtain ⟨m2, e2, a2, o2⟩ := ih (st.1 ++ m1, if gp.ptype = .offcurve then [gp] else [])
      (by dsimp only; split <;> simp) (by
        intro q hq
        dsimp only at hq
        split at hq
        · rw [List.mem_singleton] at hq; subst hq; assumption
        · cases hq)
    refine ⟨m1 ++ m2, ?_, ?_, ?_⟩
    · rw [e2]
      simp only [List.append_assoc, Prod.mk.injEq, true_and]
      unfold quadQueue
      cases gc with
      | nil => rfl
      | cons g gc => rw [List.getLast?_cons_cons]; simp [List.getLast?_cons]
    · intro p hp
      rcases List.mem_append.1 hp with hp | hp
      · obtain ⟨b, t⟩ := a1 p hp
        refine ⟨b, ?_⟩
        rcases t with t | t | t
        · exact Or.inl t
        · exact Or.inr (Or.inl t)
        · exact Or.inr (Or.inr ⟨gp, List.mem_cons_self, t⟩)
      · obtain ⟨b, t⟩ := a2 p hp
        refine ⟨b, ?_⟩
        rcases t with t | t | ⟨g, hg, t⟩
        · exact Or.inl t
        · exact Or.inr (Or.inl t)
        · exact Or.inr (Or.inr ⟨g, List.mem_cons_of_mem _ hg, t⟩)
    · intro g hg ho
      rcases List.mem_cons.1 hg with rfl | hg
      · exact List.mem_append_left _ (o1 ho)
      · exact List.mem_append_right _ (o2 g hg ho)

/-- What the quadratic reader returns on a contour starting with an on-curve point. -/
theorem quadraticContour_inv (mid : IOF → IOF → IOF) (g : GlifPoint) (gc : List GlifPoint)
    (hg : g.ptype ≠ .offcurve) :
    ∃ rest, quadraticContour (PD := PD) mid (g :: gc) = Point.ofGp g :: rest ∧
      (∀ p ∈ rest, Bare p ∧ (p.ptype = .qcurve ∨ p.ptype = .offcurve ∨ p.ptype = .qclose ∨
        ∃ g' ∈ gc, p.ptype = g'.ptype)) ∧
      ((∀ g' ∈ gc, g'.ptype ≠ .qclose) →
        ((∃ p ∈ rest, p.ptype = .qclose) ↔ ∃ z, gc.getLast? = some z ∧ z.ptype = .offcurve)) ∧
      (∀ g' ∈ gc, g'.ptype ≠ .offcurve → Point.ofGp g' ∈ rest) := by
  have h0 : quadStep mid (([], []) : Contour PD × List GlifPoint) g = ([Point.ofGp g], []) := by
    simp [quadStep, hg]
  obtain ⟨m, e, a, o⟩ := quadFold_inv mid gc ([Point.ofGp (PD := PD) g], []) (by simp) (by simp)
  unfold quadraticContour
  rw [List.foldl_cons, h0, e]
  simp only [List.cons_append, List.nil_append]
  have hm : (∀ g' ∈ gc, g'.ptype ≠ .qclose) → ∀ p ∈ m, p.ptype ≠ .qclose := by
    intro h p hp
    rcases (a p hp).2 with t | t | ⟨g', hg', t⟩
    · rw [t]; decide
    · rw [t]; decide
    · rw [t]; exact h g' hg'
  have hmt : ∀ p ∈ m, Bare p ∧ (p.ptype = .qcurve ∨ p.ptype = .offcurve ∨ p.ptype = .qclose ∨
        ∃ g' ∈ gc, p.ptype = g'.ptype) := by
    intro p hp
    obtain ⟨b, t⟩ := a p hp
    exact ⟨b, by rcases t with t | t | t <;> simp [t]⟩
  unfold quadQueue
  cases hl : gc.getLast? with
  | none =>
    refine ⟨m, rfl, hmt, ?_, o⟩
    intro h
    constructor
    · rintro ⟨p, hp, e⟩; exact absurd e (hm h p hp)
    · rintro ⟨z, hz, _⟩; cases hz
  | some z =>
    by_cases hz : z.ptype = .offcurve
    · simp only [hz, if_true]
      refine ⟨_, rfl, ?_, ?_, ?_⟩
      · intro p hp
        rcases List.mem_append.1 hp with hp | hp
        · exact hmt p hp
        · rcases List.mem_cons.1 hp with rfl | hp
          · exact ⟨bare_ofGp _, Or.inr (Or.inl hz)⟩
          · rw [List.mem_singleton] at hp
            subst hp
            refine ⟨⟨rfl, rfl⟩, ?_⟩
            dsimp only
            split
            · exact Or.inl rfl
            · exact Or.inr (Or.inr (Or.inl rfl))
      · intro _
        constructor
        · intro _; exact ⟨z, rfl, hz⟩
        · intro _
          refine ⟨_, List.mem_append_right _ (List.mem_cons_of_mem _ (List.mem_singleton.2 rfl)), ?_⟩
          dsimp only
          rw [if_neg]
          exact hg
      · intro g' h1 h2; exact List.mem_append_left _ (o g' h1 h2)
    · simp only [hz, if_false]
      refine ⟨m, rfl, hmt, ?_, o⟩
      intro h
      constructor
      · rintro ⟨p, hp, e⟩; exact absurd e (hm h p hp)
      · rintro ⟨z', hz', e⟩; cases hz'; exact absurd e hz

end GP
