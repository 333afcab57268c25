import Verif.Spec.XmlText
/-!
# What is heard of a glyph

Tabs in attributes are read as spaces, ends of lines as line feeds, and text that is only white space not at all.
-/
open Fl
namespace GP.Spec
variable {PD D : Type}

/-- With spaces for tabs. -/
def untab (s : Str) : Str := s.map fun c => if c = '\t' then ' ' else c

/-- With line feeds for all ends of lines. -/
def unix : Str → Str
  | '\r' :: '\n' :: s => '\n' :: unix s
  | c :: s => (if c = '\r' then '\n' else c) :: unix s
  | [] => []

/-- The name of the point without tabs. -/
def spokenPoint (p : Point PD) : Point PD := { p with name := p.name.map untab }

/-- The glyph as it is heard. -/
def spoken (g : Glif PD D) : Glif PD D :=
  { g with
    name := untab g.name
    outline := g.outline.map fun o => o.map fun c => c.map spokenPoint
    anchors := g.anchors.map fun a => { a with cls := a.cls.map untab }
    components := { g.components with
      vec := g.components.vec.map fun c => { c with base := untab c.base, identifier := c.identifier.map untab } }
    images := g.images.map fun i => { i with filename := untab i.filename, identifier := i.identifier.map untab }
    guidelines := g.guidelines.map fun l => { l with name := l.name.map untab, identifier := l.identifier.map untab }
    note := g.note.bind fun n => if Blank n then none else some (unix n) }

/-- The lib can be said in XML. -/
structure SayableLib (pio : PlistIO D) (g : Glif PD D) : Prop where
  plist : ∀ d, g.lib = .plist d → ∀ e, pio.toXml d = some e → (∀ c ∈ e.children, Sayable c) ∧ Apart e.children
  xml : ∀ e, g.lib = .xml e → (∀ c ∈ e.children, Sayable c) ∧ Apart e.children

/-- Nothing in the texts of the glyph is lost: they have only characters of XML, there are no tabs in names, identifiers
and file names, no carriage returns in the note, and more than white space in it. -/
structure AudibleGlyph (g : Glif PD D) : Prop where
  chars : ∀ c, HasChar c g → XmlChar c
  name : '\t' ∉ g.name
  points : ∀ o, g.outline = some o → ∀ c ∈ o, loneMove c = false → ∀ p ∈ c, ∀ s, p.name = some s → '\t' ∉ s
  anchors : ∀ a ∈ g.anchors, ∀ s, a.cls = some s → '\t' ∉ s
  components : ∀ c ∈ g.components.vec, '\t' ∉ c.base ∧ ∀ s, c.identifier = some s → '\t' ∉ s
  images : ∀ i ∈ g.images, '\t' ∉ i.filename ∧ ∀ s, i.identifier = some s → '\t' ∉ s
  guidelines : ∀ l ∈ g.guidelines, ∀ s, l.name = some s ∨ l.identifier = some s → '\t' ∉ s
  note : ∀ n, g.note = some n → '\r' ∉ n ∧ ¬ Blank n

end GP.Spec
