import Mathlib.Data.List.Forall2
import Verif.Spec.Matrix
import Verif.Spec.Edit
import Verif.Spec.Refigure
import Verif.Model.Skia
/-!
# Specification of moved contours (C132)
-/
open Fl
namespace GP.Spec

variable {PD : Type}

/-- A contour moved point by point: positions and explicit handles are moved by `F`, all else is kept. -/
def MovedContour (F : F32 → F32 → F32 × F32) (c d : Contour PD) : Prop := List.Forall₂ (MovedBy F) c d

/-- The edit of a moved contour that does what an edit of the contour does.  (Not for edits that look at or change
places: rounding, smoothness, matrices, and refiguring, which has a theorem of its own.) -/
def MovedEdit (F : F32 → F32 → F32 × F32) : ContourEdit PD → ContourEdit PD → Prop
  | .reverse, .reverse => True
  | .setOpen, .setOpen => True
  | .setClosed, .setClosed => True
  | .reversePoints, .reversePoints => True
  | .delete i, .delete j => j = i
  | .slice s e, .slice s' e' => s' = s ∧ e' = e
  | .append a, .append b => MovedContour F a b
  | _, _ => False

/-- A moved piece of a Skia path. -/
def elMoved (F : F32 → F32 → F32 × F32) : SkEl → SkEl
  | .move p => .move (F p.1 p.2)
  | .line p => .line (F p.1 p.2)
  | .quad c p => .quad (F c.1 c.2) (F p.1 p.2)
  | .conic c p w => .conic (F c.1 c.2) (F p.1 p.2) w
  | .cubic a b p => .cubic (F a.1 a.2) (F b.1 b.2) (F p.1 p.2)
  | .close => .close

/-- The handles of one point lie on it where those of the other do. -/
def SameOn (p q : Point PD) : Prop := (OnPoint q.a q ↔ OnPoint p.a p) ∧ (OnPoint q.b q ↔ OnPoint p.b p)

end GP.Spec
