import Verif.Spec.Reverse
/-!
# What refiguring a contour should do
-/
open Fl
namespace GP.Spec
variable {PD : Type}

/-- A handle lying exactly on its point (numerically: `-0 = 0`, and NaN is equal to nothing). -/
def OnPoint (h : Handle) (p : Point PD) : Prop := ∃ x y, h = .at x y ∧ x.feq p.x = true ∧ y.feq p.y = true

instance (h : Handle) (p : Point PD) : Decidable (OnPoint h p) :=
  match h with
  | .colocated => isFalse fun ⟨_, _, e, _⟩ => nomatch e
  | .at x y =>
    if hx : x.feq p.x = true ∧ y.feq p.y = true then isTrue ⟨x, y, rfl, hx.1, hx.2⟩
    else isFalse fun ⟨_, _, e, e1, e2⟩ => by cases e; exact hx ⟨e1, e2⟩

/-- Remove a handle lying on the point. -/
def settle (h : Handle) (p : Point PD) : Handle := if OnPoint h p then .colocated else h

/-- A point with both handles settled. -/
def settled (p : Point PD) : Point PD := { p with a := settle p.a p, b := settle p.b p }

/-- A point of the refigured contour: the point `p`, settled, given the outgoing handle in front of it. -/
def retyped (out : Handle) (p : Point PD) : Point PD :=
  { settled p with ptype := typeByHandles out (settled p).b }

/-- A refigured contour.  `close` is the outgoing handle of the last point, in front of the first
point of a closed contour. -/
def refigured (close : Handle) : Contour PD → Contour PD
  | [] => []
  | [p] => [{ settled p with ptype := .offcurve }]
  | p :: q :: rest =>
    (if p.ptype = .move then { settled p with ptype := .move } else retyped close p) ::
      List.zipWith (fun o r => retyped (settled o).a r) (p :: q :: rest) (q :: rest)

/-- The outgoing handle of the last point. -/
def closing (c : Contour PD) : Handle :=
  match c.getLast? with
  | some z => z.a
  | none => .colocated

end GP.Spec
