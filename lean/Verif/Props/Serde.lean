import Verif.Lemmas.Serde
import Verif.Props.Strings
import Verif.Float.Text
/-!
# Serialisation (C100, C101, C103)
-/
open Fl
namespace GP
open Spec Serde
variable {PD D : Type}

/-! ## C100 -/

/-- **C100.** A glyph that was serialised is deserialised to the same glyph without its file name, from every format
that keeps the fields, whether it writes their names or not, in which order they come and whatever others there are. -/
theorem C100_glif {F : Foreign PD D} (hF : ForeignOk F) {g : Glif PD D} (hg : InRange g.width g.components.uniques)
    (pos : Prop) (extra : String → Prop) {v w : Val} (hv : serGlif F g = some v) (hc : Carries pos extra v w) :
    deGlif F w = some { g with filename := none } := glif_ok hF hg hv w hc

/-- **C100.** Serialising fails for the glyphs whose library is no property list, and for no others. -/
theorem C100_lib (F : Foreign PD D) (g : Glif PD D) : serGlif F g = none ↔ ∃ e, g.lib = .xml e := by
  unfold serGlif
  cases g.lib <;> simp [serLib]

/-- **C100.** A loaded component. -/
theorem C100_component {F : Foreign PD D} (hF : ForeignOk F) {c : Component PD D} (hg : InRange c.glif.width c.glif.components.uniques)
    (pos : Prop) (extra : String → Prop) {v w : Val} (hv : serComponent F c = some v) (hc : Carries pos extra v w) :
    deComponent F w = some { c with glif := { c.glif with filename := none } } := component_ok hF hg hv w hc

/-- **C100.** The list of the components of a glyph. -/
theorem C100_components {F : Foreign PD D} (hF : ForeignOk F) {c : GlifComponents} (hn : c.uniques.Nodup)
    (pos : Prop) (extra : String → Prop) {w : Val} (hc : Carries pos extra ((glifComponents F).ser c) w) :
    (glifComponents F).de w = some c := glifComponents_ok hF hn w hc

/-- **C100.** All other types survive as they are. -/
theorem C100_types {F : Foreign PD D} (hF : ForeignOk F) :
    Survives (glifPoint F.iof) ∧ Survives (point F.pd) ∧ Survives (qpoint F.pd) ∧ Survives (hyperPoint F.pd) ∧ Survives handle ∧
    Survives pointType ∧ Survives whichHandle ∧ Survives hyperPointType ∧ Survives (color F.iof) ∧ Survives anchorType ∧
    Survives (anchor F) ∧ Survives (glifAnchor F.iof) ∧ Survives (guideline F) ∧ Survives (glifComponent F) ∧ Survives (glifImage F.iof) ∧
    Survives componentRect ∧ Survives affine ∧ Survives Serde.glifString :=
  ⟨glifPoint_ok hF.iof, point_ok hF.pd, qpoint_ok hF.pd, hyperPoint_ok hF.pd, handle_ok, pointType_ok, whichHandle_ok, hyperPointType_ok,
    color_ok hF.iof, anchorType_ok, anchor_ok hF, glifAnchor_ok hF.iof, guideline_ok hF, glifComponent_ok hF, glifImage_ok hF.iof,
    componentRect_ok, affine_ok, glifString_ok⟩

/-- **C100.** Layers and contours of the editor, with patterns whose contours have patterns, and the library's own data of
points. -/
theorem C100_editor {F : Foreign PD D} (hF : ForeignOk F) :
    Survives (contour F.pd) ∧ Survives (layer F) ∧ Survives vws ∧ Survives dash ∧ Survives subdivide ∧ Survives culling ∧
    Survives stretch ∧ Survives copies ∧ Survives layerOperation ∧ Survives (inner F.pd) ∧ Survives mfekPointData :=
  ⟨contour_ok hF.pd, layer_ok hF, vws_ok, dash_ok, subdivide_ok, culling_ok, stretch_ok, copies_ok, layerOperation_ok, inner_ok hF.pd,
    mfekPointData_ok⟩

/-- **C100.** Formats may leave out all names of fields, and may change the order of fields. -/
theorem C100_formats (extra : String → Prop) : (∀ v : Val, Carries True extra v v.positional) ∧
    ∀ (pos : Prop) (fs gs : List (String × Val)), (fs.map (·.1)).Nodup → gs.Perm fs → Carries pos extra (.struct fs) (.struct gs) :=
  ⟨positional_carries, fun _ _ _ => perm_carries⟩

/-! ## C101 -/

/-- **C101, partly.** An editor glyph with its history survives in formats that write the names of fields, but for its
file name and those in its history. -/
theorem C101_partial {F : Foreign PD D} (hF : ForeignOk F) {g : EditedGlif PD} (hg : EditedInRange g)
    (extra : String → Prop) (hx : ¬ extra "filename") {w : Val} (hc : Carries False extra ((edited F).ser g) w) :
    (edited F).de w = some (withoutFilenames g) := edited_ok hF id hx hg w hc

/-- **C101 is false.** In a format that leaves out the names of fields no editor glyph can be read again: the file name
is not written, and has its place among the fields that are expected. -/
theorem C101_false (F : Foreign PD D) (g : EditedGlif PD) :
    Carries True (fun _ => False) ((edited F).ser g) ((edited F).ser g).positional ∧ (edited F).de ((edited F).ser g).positional = none := by
  refine ⟨positional_carries _, ?_⟩
  obtain ⟨g, h⟩ := g
  show deEdited F _ (serEdited F (.mk g h)).positional = none
  simp only [serEdited, Val.positional]
  refine edited_positional F (.mk g h) _ ?_ _
  simp only [positionalFields, List.length_cons, List.length_nil]
  omega

/-! ## C103 -/

/-- **C103 is false.** A checked string that is deserialised need not have been checked: any text is taken. -/
theorem C103_false {iof : Serde IOF} (hi : Survives iof) (x y : IOF) : ∃ (v : Val) (a : GlifAnchor) (s : Str),
    (glifAnchor iof).de v = some a ∧ a.cls = some s ∧ glifString s = .err (.hasControlCharacter 0 '\n') :=
  ⟨_, ⟨x, y, some ['\n']⟩, ['\n'], glifAnchor_ok hi True (fun _ => False) _ _ (.same _), rfl, by decide⟩

/-- **C103, partly.** A checked string that was serialised is one when it is deserialised. -/
theorem C103_partial (s t : Str) (hs : glifString s = .ok t) (pos : Prop) (extra : String → Prop) (w : Val)
    (hc : Carries pos extra (Serde.glifString.ser t) w) : ∃ u, Serde.glifString.de w = some u ∧ u = s ∧ ∀ c ∈ u, ¬ Control c := by
  obtain ⟨rfl, h⟩ := (C15_accepts s t).1 hs
  exact ⟨t, glifString_ok pos extra t w hc, rfl, h⟩

/-- **C103.** Exactly the texts are taken, of whatever characters. -/
theorem C103_exact (v : Val) (s : Str) : Serde.glifString.de v = some s ↔ v = .str s := by
  cases v <;> simp [Serde.glifString, str]

/-! ## Examples -/

/-- Paths for the examples: whether they are absolute, and their parts. -/
def exPath : Serde Path where
  ser p := (pair Serde.bool (list str)).ser (p.abs, p.parts)
  de v := ((pair Serde.bool (list str)).de v).map fun (a, ps) => ⟨a, ps⟩

theorem exPath_ok : Survives exPath := by
  intro pos extra a w h
  have := pair_ok bool_ok (list_ok str_ok) pos extra (a.abs, a.parts) w h
  simp only [exPath, this, Option.map_some]

/-- Foreign types for the examples: numbers are floats, paths and dictionaries texts, data those of the library. -/
def exForeign : Foreign MfekPointData Str where
  iof := ⟨fun | .int i _ => .variant "Integer" (.int i) | .float x => .variant "Float" (.f32 x), fun
    | .variant "Integer" (.int i) => if h : i32ok i = true then some (.int i h) else none
    | .variant "Float" (.f32 x) => some (.float x)
    | _ => none⟩
  path := exPath
  dict := str
  pd := mfekPointData
  pdDefault := .guideline false false false

theorem exForeign_ok : ForeignOk exForeign where
  iof := by
    intro pos extra a w h
    cases a with
    | int i hi =>
      obtain ⟨u, rfl, hu⟩ := variant_inv (n := "Integer") (v := .int i) h
      cases hu
      exact dif_pos hi
    | float x =>
      obtain ⟨u, rfl, hu⟩ := variant_inv (n := "Float") (v := .f32 x) h
      cases hu
      rfl
  path := exPath_ok
  dict := str_ok
  pd := mfekPointData_ok

def exPoint : Point MfekPointData :=
  { x := Flt.ofInt b32 3, y := Flt.ofInt b32 (-1), a := .at (Flt.ofInt b32 2) (Flt.ofInt b32 0), name := some ['p'], ptype := .curve, smooth := true,
    data := some (.guideline true false true) }

def exSerGlif : Glif MfekPointData Str :=
  { outline := some [[exPoint]], components := { root := ['a'], uniques := [['a'], ['b']] }, width := some 500, name := ['a'],
    filename := some { parts := [['f']] }, lib := .plist ['d'] }

example : InRange exSerGlif.width exSerGlif.components.uniques where
  width := by intro n h; cases h; decide
  uniques := by decide

example : ∃ v, serGlif exForeign exSerGlif = some v ∧ deGlif exForeign v.positional = some { exSerGlif with filename := none } := by
  obtain ⟨v, hv⟩ : ∃ v, serGlif exForeign exSerGlif = some v := ⟨_, rfl⟩
  exact ⟨v, hv, C100_glif exForeign_ok ⟨by intro n h; cases h; decide, by decide⟩ _ (fun _ => False) hv (positional_carries v)⟩

example : serGlif exForeign ({ exSerGlif with lib := .xml { name := "lib" } } : Glif MfekPointData Str) = none := rfl

/-- Zero. -/
def o64 : F64 := Flt.ofInt b64 0

/-- A contour with a pattern whose contour has a pattern. -/
def exContour : MContour MfekPointData :=
  ⟨.cubic [exPoint], some (.pap ⟨[⟨.quad [], some (.pap ⟨[], .single, .off, false, .off, o64, false, o64, o64, (o64, o64), false, .off, false, false, false, false, false⟩)⟩],
    .repeated, .simple 3, false, .on, o64, false, o64, o64, (o64, o64), true, .removeOverlapping, false, false, true, false, false⟩)⟩

example : (contour exForeign.pd).de ((contour exForeign.pd).ser exContour).positional = some exContour :=
  (C100_editor exForeign_ok).1 True (fun _ => False) _ _ (positional_carries _)

def exMGlif : MGlif MfekPointData := ⟨[⟨['l'], true, none, [exContour], some .xor, []⟩], [], {}, none, none, [], some 7, [], ['a'], none, some { parts := [['f']] }⟩

def exEdited : EditedGlif MfekPointData := .mk exMGlif [⟨['h'], some 0, none, some 2, [], some [(0, 1), (0, 2)], .mk exMGlif []⟩]

theorem exEdited_inRange : EditedInRange exEdited := by
  have h : InRange exMGlif.width exMGlif.components.uniques := ⟨by intro n h; cases h; decide, by decide⟩
  refine .mk h (fun e he s hs => ?_) fun e he => ?_
  · cases List.mem_singleton.1 he
    cases hs
    decide
  · cases List.mem_singleton.1 he
    exact .mk h (fun e he => nomatch he) fun e he => nomatch he

/-- Fields in another order and one that is not known. -/
example : (edited exForeign).de ((edited exForeign).ser exEdited) = some (withoutFilenames exEdited) :=
  C101_partial exForeign_ok exEdited_inRange (fun _ => False) id (.same _)

example : withoutFilenames exEdited ≠ exEdited := by
  intro h
  simp only [exEdited, withoutFilenames, EditedGlif.mk.injEq] at h
  exact absurd (congrArg MGlif.filename h.1) (by simp [exMGlif])

example (x y : F32) : Carries False (fun k => k = "new") (guidelinePoint.ser (x, y)) (.struct [("new", .unit), ("y", .f32 y), ("x", .f32 x)]) := by
  refine .named (fun k => if k = "x" then .f32 x else .f32 y) ?_ ?_ ?_
  · intro k v h
    simp only [List.mem_cons, List.not_mem_nil, or_false, Prod.mk.injEq] at h
    rcases h with ⟨rfl, -⟩ | ⟨rfl, -⟩ <;> simp
  · intro k v h
    simp only [List.mem_cons, List.not_mem_nil, or_false, Prod.mk.injEq] at h
    rcases h with ⟨rfl, rfl⟩ | ⟨rfl, rfl⟩ <;> exact .same _
  · intro k w h
    simp only [List.mem_cons, List.not_mem_nil, or_false, Prod.mk.injEq] at h
    rcases h with ⟨rfl, -⟩ | ⟨rfl, -⟩ | ⟨rfl, -⟩
    · exact Or.inr rfl
    · exact Or.inl ⟨_, List.mem_cons_of_mem _ List.mem_cons_self⟩
    · exact Or.inl ⟨_, List.mem_cons_self⟩

example : glifString "top".toList = .ok "top".toList := by decide

end GP
