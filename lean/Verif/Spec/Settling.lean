import Verif.Model.Files
import Verif.Spec.Resave
/-!
# Saving the same file over and over
-/
open Fl
namespace GP.Spec
variable {D : Type}

/-- The text of a file that has been opened and saved `k` more times, `PD` being the kind of point data of the program that does so. -/
def textAfter (PD : Type) (mid : IOF → IOF → IOF) (pio : PlistIO D) (xml : XmlIO) : Nat → Str → R Str
  | 0, s => .ok s
  | k + 1, s => do
    let g : Glif PD D ← readText mid pio xml {} s
    let s' ← writeText pio xml g
    textAfter PD mid pio xml k s'

end GP.Spec
