import Verif.Spec.Parts
import Verif.Props.Flatten
/-!
# C135: components are flattened one by one
-/
open Fl
namespace GP
open Spec
variable {PD D : Type}

theorem flattenForest_append (ts us : List (Tree (Component PD D))) :
    flattenForest (ts ++ us) = ((flattenForest ts).1 ++ (flattenForest us).1, (flattenForest ts).2 ++ (flattenForest us).2) := by
  refine Prod.ext ?_ ?_
  · simp [flattenForest_fst]
  · simp [flattenForest_snd]

theorem Run.mapM_append {α β : Type} (f : α → Run β) (l m : List α) :
    Run.mapM f (l ++ m) = Run.bind (Run.mapM f l) fun a => Run.bind (Run.mapM f m) fun b => some (.ok (a ++ b)) := by
  induction l with
  | nil =>
    simp only [List.nil_append, Run.mapM, Run.bind_ok]
    match Run.mapM f m with
    | none => rfl
    | some (.err e) => rfl
    | some .panic => rfl
    | some (.ok b) => rfl
  | cons a l ih =>
    simp only [List.cons_append, Run.mapM, ih, Run.bind_assoc, Run.bind_ok, List.cons_append]

/-- **C135.** A glyph with some components and others after them is flattened to the contours of the glyph with the former followed by those
of the glyph with the latter, and reports the rectangles of the former followed by those of the latter.  If the glyph with the former
cannot be flattened, neither can this one, for the same reason; and if only the one with the latter cannot, for that. -/
theorem C135_append (toC : GlifComponent → R (Component PD D)) (n : Nat) (g : Glif PD D) (cs ds : List GlifComponent) :
    (withParts g (cs ++ ds)).flattened toC n =
      Run.bind ((withParts g cs).flattened toC n) fun a =>
      Run.bind ((withParts g ds).flattened toC n) fun b =>
      some (.ok ({ a.1 with outline := oneAfterOther a.1.outline b.1.outline }, a.2 ++ b.2)) := by
  unfold Glif.flattened
  simp only [forest_eq, withParts, Run.mapM_append, Run.bind_assoc, Run.bind_ok]
  congr 1
  funext ts
  congr 1
  funext us
  simp only [flattenForest_append, oneAfterOther, Option.getD_some]

/-- **C135.** So for a glyph of the editor. -/
theorem C135_editor (toC : GlifComponent → R (Component PD D)) (n : Nat) (m : MGlif PD) (cs ds : List GlifComponent) :
    (withPartsM m (cs ++ ds)).flatten toC n =
      Run.bind ((withPartsM m cs).flatten toC n) fun a =>
      Run.bind ((withPartsM m ds).flatten toC n) fun b =>
      some (.ok ({ a.1 with flattened := oneAfterOther a.1.flattened b.1.flattened }, a.2 ++ b.2)) := by
  unfold MGlif.flatten
  simp only [forest_eq, withPartsM, Run.mapM_append, Run.bind_assoc, Run.bind_ok]
  congr 1
  funext ts
  congr 1
  funext us
  simp only [flattenForest_append, oneAfterOther, Option.getD_some]

theorem forall₂_perm {α β : Type} {r : α → β → Prop} {l l' : List α} {m : List β} (hp : l.Perm l') (h : List.Forall₂ r l m) :
    ∃ m', List.Forall₂ r l' m' ∧ m.Perm m' := by
  induction hp generalizing m with
  | nil => exact ⟨m, h, .refl _⟩
  | cons a _ ih =>
    cases h with
    | cons h1 h2 =>
      obtain ⟨m', h3, h4⟩ := ih h2
      exact ⟨_, .cons h1 h3, h4.cons _⟩
  | swap a b l =>
    cases h with
    | cons h1 h2 =>
      cases h2 with
      | cons h3 h4 => exact ⟨_, .cons h3 (.cons h1 h4), .swap ..⟩
  | trans _ _ ih1 ih2 =>
    obtain ⟨m1, h1, p1⟩ := ih1 h
    obtain ⟨m2, h2, p2⟩ := ih2 h1
    exact ⟨m2, h2, p1.trans p2⟩

/-- **C135.** In another order the same components give the same contours and the same rectangles in another order. -/
theorem C135_order (toC : GlifComponent → R (Component PD D)) (n : Nat) (g f : Glif PD D) (cs ds : List GlifComponent)
    (rects : List ComponentRect) (hp : cs.Perm ds) (h : (withParts g cs).flattened toC n = some (.ok (f, rects))) :
    ∃ f' rects', (withParts g ds).flattened toC n = some (.ok (f', rects')) ∧
      (f.outline.getD []).Perm (f'.outline.getD []) ∧ rects.Perm rects' := by
  obtain ⟨ts, h1, rfl, rfl⟩ := flattened_ok h
  rw [forest_eq] at h1
  obtain ⟨us, h2, hpu⟩ := forall₂_perm hp (Run.mapM_ok.1 h1)
  have h3 : (withParts g ds).components.forest toC n = some (.ok us) := by
    rw [forest_eq]
    exact Run.mapM_ok.2 h2
  refine ⟨{ withParts g ds with outline := some (flattenForest us).1, components := {} }, (flattenForest us).2, ?_, ?_, ?_⟩
  · unfold Glif.flattened
    rw [h3]
    rfl
  · simp only [Option.getD_some, flattenForest_fst]
    exact (hpu.flatMap_right _).flatMap_right _
  · rw [flattenForest_snd, flattenForest_snd]
    exact hpu.map _

/-- The hypothesis of `C135_order` is met by the glyph of the sample font that refers to `b` and `a`, so that it flattens also when it refers
to `a` and `b`. -/
example (mid : IOF → IOF → IOF) (pio : PlistIO D) : ∃ f rects,
    (withParts (userOf D []) (srefs ["a", "b"]).vec).flattened (sresolve mid pio) 3 = some (.ok (f, rects)) := by
  obtain ⟨f, rects, h, -⟩ := C135_order (sresolve mid pio) 3 (userOf D []) _ (srefs ["b", "a"]).vec (srefs ["a", "b"]).vec _
    (List.Perm.swap ..) (user_flattened mid pio (sample_ba mid pio))
  exact ⟨f, rects, h⟩

end GP
