import Verif.Model.Smooth
/-!
# What an open contour is, and a point judged by its own handles, for C32, C33 and C57
-/
open Fl
namespace GP.Spec
variable {PD : Type}

/-- A contour is open if it starts with a move point. -/
def StartsWithMove (c : Contour PD) : Prop := ∃ p, c.head? = some p ∧ p.ptype = .move

/-- The smooth flag of a point, judged by the point alone. -/
def ownSmooth (near : SmoothTest) (p : Point PD) (w : F32) : Bool :=
  match p.a, p.b with
  | .at x1 y1, .at x2 y2 => near (F32.to64 p.x, F32.to64 p.y) (F32.to64 x1, F32.to64 y1)
      (F32.to64 x2, F32.to64 y2) (F32.to64 w)
  | _, _ => false

end GP.Spec
