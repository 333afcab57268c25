import Verif.Spec.Component
import Verif.Spec.Chain
import Verif.Spec.SkiaFile
/-!
# Specification of what a font draws that was saved and flattened (C133)
-/
open Fl
namespace GP.Spec

variable {PD D : Type}

/-- The glyph of the font `gs` that a component names, with the matrix of the component, and below it those of the glyph's own
components: what the component is made of, without regard to files. -/
inductive MadeOf (gs : List (Glif PD D)) : GlifComponent → Tree (Affine × Glif PD D) → Prop
  | mk {c : GlifComponent} {t : Tree (Affine × Glif PD D)} (glyph : t.data.2 ∈ gs) (name : t.data.2.name = c.base)
      (matrix : Represents c.m t.data.1) (children : List.Forall₂ (MadeOf gs) t.data.2.components.vec t.children) : MadeOf gs c t

/-- A piece with all its points moved. -/
def Stroke.moved (F : SkPoint → SkPoint) : Stroke → Stroke
  | .line a b => .line (F a) (F b)
  | .quad a b c => .quad (F a) (F b) (F c)
  | .cubic a b c d => .cubic (F a) (F b) (F c) (F d)

/-- `c'` draws the pieces of `c` after they were moved through the matrices, in their order, perhaps from another of them on, up to
the signs of zeros; and it is open if `c` is. -/
def DrawsMoved (As : List Affine) (c c' : Contour PD) : Prop :=
  openContour c' = openContour c ∧
  Rotated ((wantedStrokes c).map fun s => (s.moved (images As)).unsigned) ((wantedStrokes c').map Stroke.unsigned)

/-- The contours of a node of the font that draw something, as they are drawn. -/
def NodeDrawn (n : List Affine × (Affine × Glif PD D)) (o : Outline PD) : Prop :=
  List.Forall₂ (DrawsMoved (n.2.1 :: n.1)) ((n.2.2.outline.getD []).filter fun c => !loneMove c) o

end GP.Spec
