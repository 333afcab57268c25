import Verif.Spec.Rewriting
import Verif.Model.Mfek
/-!
# Specification of saving a file from the editor without a change (C145)
-/
open Fl
namespace GP.Spec
variable {PD D : Type}

/-- A file is opened in the editor and saved to its place without a change, for a glyph with the property `P`. -/
def OpenedInEditorAndSaved (mid : IOF → IOF → IOF) (pio : PlistIO D) (xml : XmlIO) (P : Glif PD D → Prop) (d d' : Disk) : Prop :=
  ∃ p, ∃ g g₂ : Glif PD D, readFile mid pio xml d {} p = .ok g ∧ P g ∧ (MGlif.ofGlif g).toGlif = .ok g₂ ∧ writeFile pio xml g₂ p d = .ok d'

/-- Saving the glyph from the editor gives the text that saving it gives. -/
def SavesTheSame (pio : PlistIO D) (xml : XmlIO) (g : Glif PD D) : Prop :=
  ∃ s, ∃ g₂ : Glif PD D, writeText pio xml g = .ok s ∧ (MGlif.ofGlif g).toGlif = .ok g₂ ∧ writeText pio xml g₂ = .ok s

end GP.Spec
