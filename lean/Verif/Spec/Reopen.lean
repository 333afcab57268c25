import Verif.Spec.Spoken
import Verif.Spec.LibFile
/-!
# Files that are opened, saved and opened again
-/
open Fl
namespace GP.Spec
open Plist
variable {PD L : Type}

/-- One save and load, by way of the text of the file. -/
def ReopensAs (mid : IOF → IOF → IOF) (pio : PlistIO (Dict L)) (xml : XmlIO) (g g' : Glif PD (Dict L)) : Prop :=
  ∃ s, writeText pio xml g = .ok s ∧ readText mid pio xml {} s = .ok g'

/-- A contour of the file that starts with a quadratic point. -/
def StartsQuadratic (c : Element) : Prop := ∃ p ps, named "point" c.children = p :: ps ∧ OfType p "qcurve"

/-- Nothing in the glyph or its lib is changed by the spelling of the file. -/
structure AsSpelled (g : Glif PD (Dict L)) : Prop where
  glyph : AudibleGlyph g
  lib : ∀ d, g.lib = .plist d → Audible (.dict d)

end GP.Spec
