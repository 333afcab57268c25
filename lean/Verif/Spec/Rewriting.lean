import Verif.Spec.FontDraw
import Verif.Spec.Reopen
/-!
# Specification of saving the files of a font again (C144)
-/
open Fl
namespace GP.Spec
variable {PD D : Type}

/-- Both are open or both are closed, and they draw the same pieces in the same order, up to the one they begin with and the signs of
zeros. -/
def DrawsAlike (c c' : Contour PD) : Prop :=
  openContour c' = openContour c ∧ Rotated ((wantedStrokes c).map Stroke.unsigned) ((wantedStrokes c').map Stroke.unsigned)

/-- Two outcomes of flattening: no end, the same error, a panic, or glyphs whose contours draw the same, with rectangles of the same
names. -/
inductive FlattenedAlike : Run (Glif PD D × List ComponentRect) → Run (Glif PD D × List ComponentRect) → Prop
  | endless : FlattenedAlike none none
  | err (e : GErr) : FlattenedAlike (some (.err e)) (some (.err e))
  | panic : FlattenedAlike (some .panic) (some .panic)
  | ok {f f' : Glif PD D} {o o' : Outline PD} {rects rects' : List ComponentRect} (ho : f.outline = some o) (ho' : f'.outline = some o')
      (h : List.Forall₂ DrawsAlike o o') (hr : rects'.map (·.name) = rects.map (·.name)) :
      FlattenedAlike (some (.ok (f, rects))) (some (.ok (f', rects')))

/-- The same error, a panic, or results that are related. -/
inductive OutRel {α β : Type} (r : α → β → Prop) : R α → R β → Prop
  | err (e : GErr) : OutRel r (.err e) (.err e)
  | panic : OutRel r .panic .panic
  | ok {a : α} {b : β} (h : r a b) : OutRel r (.ok a) (.ok b)

/-- A file is opened and what was read is saved to it, for a glyph with the property `P`. -/
def OpenedAndSaved (mid : IOF → IOF → IOF) (pio : PlistIO D) (xml : XmlIO) (P : Glif PD D → Prop) (d d' : Disk) : Prop :=
  ∃ p g, readFile mid pio xml d {} p = .ok g ∧ P g ∧ writeFile pio xml g p d = .ok d'

end GP.Spec
