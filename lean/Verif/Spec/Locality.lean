import Verif.Spec.Component
/-!
# Which files resolving components reads
-/
open Fl
namespace GP.Spec
variable {PD D : Type}

/-- The file `f` is that of one of the components, or of a component of the glyph in the file of one of them, and so on. -/
def FileUsed (PD : Type) {D : Type} (mid : IOF → IOF → IOF) (pio : PlistIO D) (files : Files) (cs : List GlifComponent) (f : Path) : Prop :=
  ∃ c ∈ cs, ∃ d, Reach PD mid pio files c d ∧ d.filename = some f

end GP.Spec
