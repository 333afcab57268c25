import Verif.Model.Layer
import Verif.Spec.Strings
/-!
# Specifications for layers as property lists (C45, C64, C65)
-/
namespace GP.Spec

variable {PD V : Type}

/-- The layers that are shown, each with its place among all layers. -/
def shown (ls : List (Layer PD)) : List (Layer PD × Nat) := ls.zipIdx.filter fun p => p.1.visible

/-- A pair of strings as a property list. -/
def pairValue (e : Str × Str) : PValue V := .array [.str e.1, .str e.2]

/-- `add` are the elements of `ours` missing in `theirs`: each once, in the order of their first appearance. -/
def Missing {α : Type} (ours theirs add : List α) : Prop :=
  add.Nodup ∧ add.Sublist ours ∧ (∀ x ∈ add, x ∉ theirs) ∧ ∀ n, ∃ k, ∀ x, x ∈ add.take k ↔ x ∈ ours.take n ∧ x ∉ theirs

/-- A list of layers and directories as the UFO specification wants it: different names, directories that
differ even if case is ignored, and the directory `glyphs` belonging to the layer `public.default`. -/
def WellFormed (l : List (Str × Str)) : Prop :=
  l.Pairwise (fun a b => a.1 ≠ b.1) ∧ l.Pairwise (fun a b => ¬ SameIgnoringCase a.2 b.2) ∧
  ("public.default".toList, "glyphs".toList) ∈ l ∧
  ∀ e ∈ l, e.1 = "public.default".toList ↔ e.2 = "glyphs".toList

end GP.Spec
