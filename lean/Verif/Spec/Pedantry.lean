import Verif.Model.Text
import Verif.Spec.Numbers
/-!
# Pedantry
-/
open Fl
namespace GP.Spec

/-- The level is that of a font file (src/pedantry.rs 34-42). -/
def OfFontFile (p : Pedantry) : Prop := p.level = .openType ∨ p.level = .trueType

/-- Nothing may be mended on the way to a font file. -/
def Strictest (p : Pedantry) : Prop := OfFontFile p ∧ p.mend = .never

/-- How the same anchor is read with two pedantries. -/
def AnchorReread (p q : Pedantry) (a b : Anchor) : Prop :=
  a.cls = b.cls ∧ a.atype = b.atype ∧
  ((OfFontFile p ↔ OfFontFile q) → a.x = b.x ∧ a.y = b.y) ∧
  (OfFontFile p → ¬ OfFontFile q → RoundsTo b.x a.x ∧ RoundsTo b.y a.y)

/-- A whole number, an infinity or NaN. -/
def Whole (x : F32) : Prop :=
  match x with
  | .nan => True
  | .num _ k _ => k = b32.inf ∨ ∃ M : Nat, b32.val k = M * 2 ^ 149

end GP.Spec
