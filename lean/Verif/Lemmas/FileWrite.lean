import Verif.Lemmas.FileRead
import Verif.Lemmas.Numbers
/-!
# Attributes written are read back
-/
open Fl Fl.Text
namespace GP
variable {PD D : Type}
open Spec

theorem lookup_insertAttr (k k' : String) (v : Str) (l : List (String × Str)) :
    (insertAttr k v l).lookup k' = if k' = k then some v else l.lookup k' := by
  induction l with
  | nil => 
    unfold insertAttr
    by_cases h : k' = k
    · simp [h]
    · have : (k' == k) = false := by simpa using h
      simp [h, List.lookup_cons, this]
  | cons a l ih =>
    obtain ⟨k₀, v₀⟩ := a
    unfold insertAttr
    by_cases h0 : k₀ = k
    · rw [if_pos h0]
      subst h0
      by_cases h : k' = k₀
      · simp [h]
      · have : (k' == k₀) = false := by simpa using h
        simp [h, List.lookup_cons, this]
    · rw [if_neg h0, List.lookup_cons, List.lookup_cons, ih]
      by_cases h : k' = k₀
      · subst h; simp [h0]
      · have : (k' == k₀) = false := by simpa using h
        simp [this]

@[simp] theorem get_set (e : Element) (k k' : String) (v : Str) :
    (e.set k v).get k' = if k' = k then some v else e.get k' := lookup_insertAttr k k' v e.attrs

@[simp] theorem get_setOpt (e : Element) (k k' : String) (v : Option Str) :
    (e.setOpt k v).get k' = if k' = k then (match v with | some s => some s | none => e.get k') else e.get k' := by
  cases v with
  | none => simp [Element.setOpt]
  | some s => simp [Element.setOpt]

@[simp] theorem get_empty (n k : String) (c : List Node) : (Element.mk n [] c).get k = none := rfl

@[simp] theorem set_name (e : Element) (k : String) (v : Str) : (e.set k v).name = e.name := rfl
@[simp] theorem setOpt_name (e : Element) (k : String) (v : Option Str) : (e.setOpt k v).name = e.name := by
  cases v <;> rfl
@[simp] theorem set_children (e : Element) (k : String) (v : Str) : (e.set k v).children = e.children := rfl

/-- The six coefficients as they come back from text. -/
def Mat6.reread (m : Mat6) : Mat6 :=
  { xScale := m.xScale.reread, xyScale := m.xyScale.reread, yxScale := m.yxScale.reread, yScale := m.yScale.reread,
    xOffset := m.xOffset.reread, yOffset := m.yOffset.reread }

/-- The four channels as they come back from text. -/
def Color.reread (c : Color) : Color := { r := c.r.reread, g := c.g.reread, b := c.b.reread, a := c.a.reread }

theorem color_parse_text (c : Color) : Color.parse c.text = .ok c.reread := by
  rw [color_parse_fields (color_text_fields c)]
  simp only [IOF.parse_show_eq, Out.ofOption_some, Out.bind_ok]
  rfl

theorem loadMatrix_written (e : Element) (m m0 : Mat6) (id : Option Str) :
    loadMatrix (writeMatrix e m id) m0 = .ok m.reread := by
  unfold loadMatrix writeMatrix optIof
  simp [IOF.parse_show_eq, Mat6.reread]

theorem readComponent_written (c : GlifComponent) :
    readComponent (componentXml c) = .ok { c with filename := none, m := c.m.reread } := by
  unfold readComponent componentXml
  rw [loadMatrix_written]
  unfold need writeMatrix
  cases hi : c.identifier <;> simp [GlifComponent.new]

theorem readImage_written (i : GlifImage) :
    readImage (imageXml i) = .ok { i with m := i.m.reread, color := none } := by
  unfold readImage imageXml
  simp only [loadMatrix_written]
  unfold need optColor writeMatrix
  cases hi : i.identifier <;> simp [GlifImage.fromFilename]

theorem readGuideline_written (g : Guideline) :
    readGuideline (guidelineXml g) = .ok { g with angle := g.angle.reread, color := g.color.map Color.reread } := by
  unfold readGuideline guidelineXml needF32 needIof need optColor
  have hx := parseFloat_showFloat b32_p g.x
  have hy := parseFloat_showFloat b32_p g.y
  cases hc : g.color <;> cases hn : g.name <;> cases hi : g.identifier <;>
    simp [IOF.parse_show_eq, color_parse_text, hx, hy]

theorem readAdvance_written (ped : Pedantry) (w : Nat) (h : w < 2 ^ 64) : readAdvance ped (advanceXml w) = .ok w := by
  unfold readAdvance advanceXml need
  simp [C12_round_trip ped w h]

theorem readUnicode_written (c : Char) : readUnicode (unicodeXml c) = .ok c := by
  unfold readUnicode unicodeXml need
  simp [C11_round_trip]

end GP
