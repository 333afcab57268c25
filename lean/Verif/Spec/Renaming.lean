import Verif.Model.Component
import Verif.Spec.Files
/-!
# Renaming the glyphs of a font
-/
open Fl
namespace GP.Spec
variable {PD D : Type}

/-- The component, referring to the new name of the glyph it refers to. -/
def renamedComponent (ρ : Str → Str) (c : GlifComponent) : GlifComponent := { c with base := ρ c.base }

/-- The glyph with a new name, its components referring to the new names. -/
def renamed (ρ : Str → Str) (g : Glif PD D) : Glif PD D :=
  { g with name := ρ g.name
           components := { g.components with root := ρ g.components.root, vec := g.components.vec.map (renamedComponent ρ) } }

/-- Two outcomes of flattening are the same but for the names: no end, the same error, a panic, or the same glyph, which has the new
name and is in the file `p`, with the same rectangles, which have the new names. -/
inductive SameButNames (ρ : Str → Str) (p : Path) : Run (Glif PD D × List ComponentRect) → Run (Glif PD D × List ComponentRect) → Prop
  | endless : SameButNames ρ p none none
  | err (e : GErr) : SameButNames ρ p (some (.err e)) (some (.err e))
  | panic : SameButNames ρ p (some .panic) (some .panic)
  | ok (f : Glif PD D) (rects : List ComponentRect) :
      SameButNames ρ p (some (.ok (f, rects)))
        (some (.ok ({ f with name := ρ f.name, filename := some p }, rects.map fun r => { r with name := ρ r.name })))

end GP.Spec
