import Verif.Spec.Format
import Verif.Spec.Spelling
import Verif.Spec.Reopen
/-!
# Files of the format, for C143
-/
open Fl
namespace GP.Spec
variable {PD D : Type}

/-- The text is a spelling of a document of the format, with `num` for its numbers. -/
def FileOfFormat (num : Str → Prop) (t : Str) : Prop := ∃ root, SpellsDoc root t ∧ Conforms num root

end GP.Spec
