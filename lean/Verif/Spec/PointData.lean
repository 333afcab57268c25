import Verif.Model.Component
/-!
# Point data of another kind
-/
open Fl
namespace GP.Spec
variable {PD PD' D : Type}

/-- The point with its data changed, or taken away, and otherwise as it was. -/
def withData (f : PD → Option PD') (p : Point PD) : Point PD' :=
  { x := p.x, y := p.y, a := p.a, b := p.b, name := p.name, ptype := p.ptype, smooth := p.smooth, data := p.data.bind f }

/-- So for all points of a contour, -/
def contourWithData (f : PD → Option PD') (c : Contour PD) : Contour PD' := c.map (withData f)

/-- of an outline -/
def outlineWithData (f : PD → Option PD') (o : Outline PD) : Outline PD' := o.map (contourWithData f)

/-- and of a glyph. -/
def glifWithData (f : PD → Option PD') (g : Glif PD D) : Glif PD' D :=
  { outline := g.outline.map (outlineWithData f), anchors := g.anchors, components := g.components, guidelines := g.guidelines,
    images := g.images, width := g.width, unicode := g.unicode, name := g.name, note := g.note, filename := g.filename, lib := g.lib }

/-- The outcome with what is in it changed. -/
def outMap {ε α β : Type} (f : α → β) : Out ε α → Out ε β
  | .ok a => .ok (f a)
  | .err e => .err e
  | .panic => .panic

end GP.Spec
