import Verif.Model.MfekFlatten
/-!
# A glyph with some of its components
-/
open Fl
namespace GP.Spec
variable {PD D : Type}

/-- The glyph with these components. -/
def withParts (g : Glif PD D) (cs : List GlifComponent) : Glif PD D := { g with components := { g.components with vec := cs } }

/-- The glyph of the editor with these components. -/
def withPartsM (m : MGlif PD) (cs : List GlifComponent) : MGlif PD := { m with components := { m.components with vec := cs } }

/-- The contours of one and then those of the other. -/
def oneAfterOther (a b : Option (Outline PD)) : Option (Outline PD) := some (a.getD [] ++ b.getD [])

end GP.Spec
