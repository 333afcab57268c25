import Verif.Model.Mfek
/-!
# Flattening a glyph of the editor (src/component.rs)
-/
open Fl
namespace GP
variable {PD D : Type}

/-- src/component.rs 226-256 for `MFEKGlif` (line 263): as for `Glif`, but the contours of the components go to the
field `flattened`.  `D` is what the libs of the component files hold. -/
def MGlif.flatten (toC : GlifComponent → R (Component PD D)) (depth : Nat) (m : MGlif PD) :
    Run (MGlif PD × List ComponentRect) :=
  Run.bind (m.components.forest toC depth) fun ts =>
    let r := flattenForest ts
    some (.ok ({ m with flattened := some r.1, components := {} }, r.2))

end GP
