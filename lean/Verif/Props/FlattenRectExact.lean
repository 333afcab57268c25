import Verif.Props.FlattenRect
/-!
# C26: exactly when the rectangle of a component contains what is drawn of it
-/
open Fl
namespace GP
namespace Spec
variable {PD D : Type}

/-- The contours of a component that its rectangle is taken from: those of the first of its own components that has any, or its own
if none has. -/
def measured (t : Tree (Component PD D)) : Outline PD :=
  ((t.children.map fun k => k.data.glif.outline.getD []).find? fun o => !o.isEmpty).getD (t.data.glif.outline.getD [])

/-- Neither to the left nor to the right of all of the points, and neither below nor above all of them. -/
def Amidst (ps : List (Point PD)) (q : Point PD) : Prop :=
  (∃ p ∈ ps, Flt.fle p.x q.x = true) ∧ (∃ p ∈ ps, Flt.fle q.x p.x = true) ∧
  (∃ p ∈ ps, Flt.fle p.y q.y = true) ∧ ∃ p ∈ ps, Flt.fle q.y p.y = true

/-- At the origin. -/
def OnOrigin (q : Point PD) : Prop := Flt.feq q.x Flt.zero = true ∧ Flt.feq q.y Flt.zero = true

end Spec
open Spec
variable {PD D : Type}

theorem inside_bounds {r : Rect} {ps : List (Point PD)} (h : Bounds r ps) (q : Point PD) : Inside r q ↔ Amidst ps q := by
  constructor
  · rintro ⟨h1, h2, h3, h4⟩
    obtain ⟨a, ha, ea⟩ := h.left
    obtain ⟨b, hb, eb⟩ := h.right
    obtain ⟨c, hc, ec⟩ := h.bottom
    obtain ⟨d, hd, ed⟩ := h.top
    exact ⟨⟨a, ha, by rw [ea]; exact h1⟩, ⟨b, hb, by rw [eb]; exact h2⟩, ⟨c, hc, by rw [ec]; exact h3⟩, ⟨d, hd, by rw [ed]; exact h4⟩⟩
  · rintro ⟨⟨a, ha, ea⟩, ⟨b, hb, eb⟩, ⟨c, hc, ec⟩, ⟨d, hd, ed⟩⟩
    exact ⟨fle_trans (h.inside a ha).1 ea, fle_trans eb (h.inside b hb).2.1, fle_trans (h.inside c hc).2.2.1 ec,
      fle_trans ed (h.inside d hd).2.2.2⟩

theorem inside_empty (q : Point PD) : Inside {} q ↔ OnOrigin q := by
  have key : ∀ x : F32, (Flt.fle Flt.zero x = true ∧ Flt.fle x Flt.zero = true) ↔ Flt.feq x Flt.zero = true := by
    intro x
    constructor
    · rintro ⟨h1, h2⟩
      simp only [Flt.fle, Bool.or_eq_true] at h1 h2
      rcases h2 with h2 | h2
      · rcases h1 with h1 | h1
        · exact absurd h1 (by rcases x with _ | ⟨_ | _, k, hk⟩ <;> simp_all [Flt.flt, Flt.zero])
        · exact absurd h1 (by rcases x with _ | ⟨_ | _, k, hk⟩ <;> simp_all [Flt.flt, Flt.feq, Flt.zero])
      · exact h2
    · intro h
      exact ⟨(feq_fle h).2, (feq_fle h).1⟩
  unfold Inside OnOrigin
  rw [← key, ← key]
  simp only [and_assoc]

/-- What the rectangle is taken from. -/
theorem rect_measured {toC : GlifComponent → R (Component PD D)} {n : Nat} {g g' : Glif PD D}
    {rects : List ComponentRect} {ts : List (Tree (Component PD D))}
    (h : g.flattened toC n = some (.ok (g', rects))) (ht : g.components.forest toC n = some (.ok ts))
    (i : Nat) (t : Tree (Component PD D)) (r : ComponentRect) (hi : ts[i]? = some t) (hr : rects[i]? = some r)
    (hn : ∀ d ∈ t.data :: t.children.map Tree.data, ∀ c ∈ d.glif.outline.getD [], c ≠ [] ∧ ∀ p ∈ c, p.x.isNaN = false ∧ p.y.isNaN = false) :
    (measured t ≠ [] → Bounds r.rect (measured t).flatten) ∧ (measured t = [] → r.rect = {}) := by
  obtain ⟨h1, h2⟩ := C26_rectangle h ht i t r hi hr hn
  cases hf : (t.children.map fun k => k.data.glif.outline.getD []).find? fun o => !o.isEmpty with
  | none =>
    have e : measured t = t.data.glif.outline.getD [] := by unfold measured; rw [hf]; rfl
    rw [e]
    refine h2 fun d hd => ?_
    obtain ⟨k, hk, rfl⟩ := List.mem_map.1 hd
    have := List.find?_eq_none.1 hf _ (List.mem_map_of_mem hk)
    simpa using this
  | some o =>
    have e : measured t = o := by unfold measured; rw [hf]; rfl
    rw [e]
    obtain ⟨ho, as, bs, hab, has⟩ := List.find?_eq_some_iff_append.1 hf
    have ho : o ≠ [] := by simpa using ho
    refine ⟨fun _ => ?_, fun h => absurd h ho⟩
    obtain ⟨pre, rest, e1, e2, e3⟩ := List.map_eq_append_iff.1 hab
    obtain ⟨k, post, e4, e5, e6⟩ := List.map_eq_cons_iff.1 e3
    rw [← e5] at ho ⊢
    refine h1 (pre.map Tree.data) k.data (post.map Tree.data) (by rw [e1, e4]; simp) (fun d hd => ?_) ho
    obtain ⟨a, ha, rfl⟩ := List.mem_map.1 hd
    have := has (a.data.glif.outline.getD []) (by rw [← e2]; exact List.mem_map_of_mem (f := fun k : Tree (Component PD D) => k.data.glif.outline.getD []) ha)
    simpa using this

/-- **C26**, exactly when it holds: what is drawn of a component is in its rectangle if and only if each point of it is amidst the
points, as they are in its file, of the glyph that the rectangle is taken from, or, if there are none, at the origin. -/
theorem C26_exact {toC : GlifComponent → R (Component PD D)} {n : Nat} {g g' : Glif PD D}
    {rects : List ComponentRect} {ts : List (Tree (Component PD D))}
    (h : g.flattened toC n = some (.ok (g', rects))) (ht : g.components.forest toC n = some (.ok ts))
    (i : Nat) (t : Tree (Component PD D)) (r : ComponentRect) (hi : ts[i]? = some t) (hr : rects[i]? = some r)
    (hn : ∀ d ∈ t.data :: t.children.map Tree.data, ∀ c ∈ d.glif.outline.getD [], c ≠ [] ∧ ∀ p ∈ c, p.x.isNaN = false ∧ p.y.isNaN = false) :
    (∀ x ∈ nodes (·.matrix) [] t, ∀ o, DrawnNode x o → ∀ c ∈ o, ∀ p ∈ c, Inside r.rect p) ↔
      ∀ x ∈ nodes (·.matrix) [] t, ∀ o, DrawnNode x o → ∀ c ∈ o, ∀ p ∈ c,
        Amidst (measured t).flatten p ∨ measured t = [] ∧ OnOrigin p := by
  obtain ⟨h1, h2⟩ := rect_measured h ht i t r hi hr hn
  have key : ∀ p : Point PD, Inside r.rect p ↔ Amidst (measured t).flatten p ∨ measured t = [] ∧ OnOrigin p := by
    intro p
    by_cases hm : measured t = []
    · rw [h2 hm, inside_empty, hm]
      constructor
      · exact fun h => .inr ⟨rfl, h⟩
      · rintro (⟨⟨q, hq, -⟩, -⟩ | h)
        · cases hq
        · exact h.2
    · rw [inside_bounds (h1 hm)]
      exact ⟨.inl, fun h => h.elim id fun h => absurd h.1 hm⟩
  simp only [key]

section samples
variable (mid : IOF → IOF → IOF) (pio : PlistIO D)

/-- The moved component of the sample font meets the hypotheses; its rectangle is taken from contours. -/
example : ∃ g' r t, (movedA D 20 (by decide)).flattened (sresolve mid pio) 1 = some (.ok (g', [r])) ∧
    (movedA D 20 (by decide)).components.forest (sresolve mid pio) 1 = some (.ok [t]) ∧
    (∀ d ∈ t.data :: t.children.map Tree.data, ∀ c ∈ d.glif.outline.getD [], c ≠ [] ∧ ∀ p ∈ c, p.x.isNaN = false ∧ p.y.isNaN = false) ∧
    measured t ≠ [] := by
  refine ⟨_, _, _, movedA_flattened mid pio 20 (by decide), movedA_forest mid pio 20 (by decide), ?_, ?_⟩
  · intro d hd c hc
    simp only [treeA, Tree.data, Tree.children, List.map_nil, List.mem_singleton] at hd
    subst hd
    rw [outline_a] at hc
    cases List.mem_singleton.1 hc
    refine ⟨by decide, ?_⟩
    decide +kernel
  · simp only [measured, treeA, Tree.data, Tree.children, List.map_nil, List.find?_nil, Option.getD_none]
    rw [outline_a]
    decide

end samples

end GP
