import Verif.Spec.DocParts
/-!
# Specification of saving and reading a glyph contour by contour (C147)
-/
open Fl
namespace GP.Spec
variable {PD D : Type}

/-- A glyph with these contours and components instead of its own. -/
def holding (g : Glif PD D) (o : Outline PD) (ks : List GlifComponent) : Glif PD D :=
  { g with outline := some o, components := { g.components with vec := ks } }

end GP.Spec
