import Verif.Spec.File
/-!
# Specification of reading a document part by part (C146)
-/
open Fl
namespace GP.Spec
variable {PD D : Type}

/-- Of the things that are said once, none is said in both parts. -/
def SaidApart (as bs : List Node) : Prop :=
  ∀ n ∈ ["advance", "note", "outline", "lib"], named n as = [] ∨ named n bs = []

/-- Two glyphs put together: the lists of one after those of the other, the rest from the one that has it. -/
def together (g h : Glif PD D) : Glif PD D where
  name := g.name
  filename := none
  width := g.width.or h.width
  note := g.note.or h.note
  lib := match g.lib with
    | .none => h.lib
    | l => l
  unicode := g.unicode ++ h.unicode
  anchors := g.anchors ++ h.anchors
  images := g.images ++ h.images
  guidelines := g.guidelines ++ h.guidelines
  outline := g.outline.or h.outline
  components := { root := g.name, vec := g.components.vec ++ h.components.vec }

/-- A glyph with more contours and components. -/
def withMore (g : Glif PD D) (o : Outline PD) (cs : List GlifComponent) : Glif PD D :=
  { g with
    outline := if g.outline.getD [] ++ o = [] ∧ g.components.vec ++ cs = [] then none else some (g.outline.getD [] ++ o)
    components := { g.components with vec := g.components.vec ++ cs } }

/-- A document with an outline between other elements. -/
def withOutline (root : Element) (pre post : List Node) (attrs : List (String × Str)) (xs : List Node) : Element :=
  { root with children := pre ++ .elem "outline" attrs xs :: post }

end GP.Spec
