import Verif.Model.Files
import Verif.Spec.File
import Verif.Spec.Resave
import Verif.Spec.Strings
import Mathlib.Logic.Relation
/-!
# Glyphs as text and in files
-/
open Fl
namespace GP.Spec
variable {PD D : Type}

/-- The element survives printing and parsing, up to what does not matter to the reader. -/
def Prints (xml : XmlIO) (e : Element) : Prop :=
  ∃ s, xml.print e = some s ∧ ∃ e', xml.parse s = some e' ∧ SameDoc e e'

/-- The file named after a glyph, in a directory. -/
def fileIn (dir : Path) (name : Str) : Path := { dir with parts := dir.parts ++ [nameToFilename name true] }

/-- The glyph `g'` read from the file of `g` in a directory: as saved, and it and its components know
their files. -/
def InFont (dir : Path) (g g' : Glif PD D) : Prop :=
  ∃ g0 : Glif PD D, Resaved g g0 ∧
    g' = { g0 with filename := some (fileIn dir g.name),
                   components := { g0.components with
                     vec := g0.components.vec.map fun c => { c with filename := some (fileIn dir c.base) } } }

/-- Different paths may lead to the same file only if they are the same when case is ignored. -/
def IgnoresCaseAtMost (d : Disk) : Prop :=
  ∀ p q, d.place p = d.place q → List.Forall₂ SameIgnoringCase p.parts q.parts

/-- A contour that the writer cannot write. -/
def Unwritable (c : Contour PD) : Prop :=
  (∀ p ∈ c, p.ptype = .offcurve) ∨ ∃ p ∈ c, p.ptype = .undefined ∨ p.ptype = .qclose

/-- The glyph called `a` has a component that refers to the glyph called `b`. -/
def RefersTo (gs : List (Glif PD D)) (a b : Str) : Prop :=
  ∃ g ∈ gs, g.name = a ∧ ∃ c ∈ g.components.vec, c.base = b

/-- From the glyph called `a` one comes to a glyph that refers, directly or indirectly, to itself. -/
def LeadsToCycle (gs : List (Glif PD D)) (a : Str) : Prop :=
  ∃ b, Relation.TransGen (RefersTo gs) a b ∧ Relation.TransGen (RefersTo gs) b b

end GP.Spec
