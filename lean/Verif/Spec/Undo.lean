import Verif.Spec.Mfek
/-!
# Specification of undoing an edit (C131)
-/
open Fl
namespace GP.Spec

variable {PD : Type}

/-- The edit that one would undo an edit of the contour `c` with: a point that was inserted is deleted, a deleted
one inserted again where it was, what was appended is cut off, a reversal is reversed, an opened contour is closed and a
closed one opened. -/
def Counterpart (c : MContour PD) : Edit PD → Edit PD → Prop
  | .insert i _, .delete j => j = i
  | .delete i, .insert j p => j = i ∧ (pts c.inner)[i]? = some p
  | .append _, .sub s e => s = 0 ∧ e = (pts c.inner).length
  | .reverse, .reverse => True
  | .setOpen, .setClosed => True
  | .setClosed, .setOpen => True
  | _, _ => False

/-- The first point has the type `t`, or a hyperbezier contour is marked as open or not. -/
def FirstIs (t : PointType) (o : Bool) : MInner PD → Prop
  | .cubic c => ∃ p, c.head? = some p ∧ p.ptype = t
  | .quad c => ∃ p, c.head? = some p ∧ p.ptype = t
  | .hyper c => c.isOpen = o

/-- When the counterpart of an edit restores the contour: a deleted point had the same width handle as the next
point; a contour that was appended to had one handle more than points; an opened contour was closed with a curve. -/
def Restores (c : MContour PD) : Edit PD → Prop
  | .delete i => ∀ w, widths c = some w → w[i + 1]? = w[i]?
  | .append _ => ∀ w, widths c = some w → w.length = (pts c.inner).length + 1
  | .setOpen => FirstIs .curve false c.inner
  | .setClosed => FirstIs .move true c.inner
  | _ => True

/-- The edits `us` take back the edits `es` of `c`, the last one first. -/
inductive TakenBack : MContour PD → List (Edit PD) → List (Edit PD) → Prop
  | nil {c} : TakenBack c [] []
  | cons {c d e u es us} : e.run c = .ok d → Counterpart c e u → Restores c e → TakenBack d es us →
      TakenBack c (e :: es) (us ++ [u])

end GP.Spec
