import Verif.Spec.Write
import Verif.Props.Edit
import Verif.Props.Format
import Verif.Props.Decimal
import Verif.Props.Numbers
import Verif.Props.Text
/-!
# C95: what is written is what the glyph says
-/
open Fl Fl.Text
namespace GP
open Spec
variable {PD D : Type}

theorem denotes_text (x : IOF) : Denotes x.text x := by
  cases x with
  | int i h =>
    rcases (C79_number _ _).1 (C52_integer i h) with ⟨j, hj, e, hx⟩ | ⟨-, y, e, -⟩
    · cases e; exact hx
    · cases e
  | float f => exact (C79_float (by decide) _ _).1 (parseFloat_showFloat (by decide) f)

theorem floatText_show (f : F32) : FloatText b32 (showFloat f) f :=
  (C79_float (by decide) _ _).1 (parseFloat_showFloat (by decide) f)

theorem colorText_text (c : Color) : ColorDenoted c c.text :=
  ⟨_, _, _, _, ⟨text_no_comma c.r, text_no_comma c.g, text_no_comma c.b, text_no_comma c.a, rfl⟩,
    denotes_text _, denotes_text _, denotes_text _, denotes_text _⟩

/-! ## Attributes -/

/-- Adding an attribute that is not there yet. -/
theorem attrs_set {e : Element} {l : List (String × (Str → Prop))} (h : AttrsAre e l) (k : String) (v : Str)
    (P : Str → Prop) (hk : ∀ x ∈ l, x.1 ≠ k) (hv : P v) : AttrsAre (e.set k v) (l ++ [(k, P)]) := by
  constructor
  · intro k' s hs
    rw [get_set] at hs
    split at hs
    · next e' => cases hs; exact ⟨(k, P), by simp, by simpa using e'.symm, hv⟩
    · obtain ⟨x, hx, h1, h2⟩ := h.1 k' s hs
      exact ⟨x, by simp [hx], h1, h2⟩
  · intro x hx
    rcases List.mem_append.1 hx with hx | hx
    · obtain ⟨s, h1, h2⟩ := h.2 x hx
      exact ⟨s, by rw [get_set, if_neg (hk x hx)]; exact h1, h2⟩
    · rw [List.mem_singleton.1 hx]
      exact ⟨v, by rw [get_set, if_pos rfl], hv⟩

theorem attrs_setOpt {α : Type} {e : Element} {l : List (String × (Str → Prop))} (h : AttrsAre e l) (k : String)
    (o : Option α) (f : α → Str) (P : α → Str → Prop) (hk : ∀ x ∈ l, x.1 ≠ k) (hv : ∀ a, P a (f a)) :
    AttrsAre (e.setOpt k (o.map f)) (l ++ ifAny k P o) := by
  cases o with
  | none => simpa [ifAny, Element.setOpt] using h
  | some a => exact attrs_set h k _ _ hk (hv a)

theorem attrs_perm {e : Element} {l l' : List (String × (Str → Prop))} (h : AttrsAre e l) (hl : ∀ x, x ∈ l ↔ x ∈ l') :
    AttrsAre e l' :=
  ⟨fun k s hs => by obtain ⟨x, hx, h1⟩ := h.1 k s hs; exact ⟨x, (hl x).1 hx, h1⟩, fun x hx => h.2 x ((hl x).2 hx)⟩

theorem attrs_none (n : String) (cs : List Node) :
    AttrsAre ({ name := n, children := cs } : Element) ([] : List (String × (Str → Prop))) :=
  ⟨fun _ _ hs => (nomatch hs), fun _ hx => (nomatch hx)⟩

theorem key_ne {l : List (String × (Str → Prop))} {x : String × (Str → Prop)} {k : String} (hx : x ∈ l)
    (hk : k ∉ l.map Prod.fst) : x.1 ≠ k := fun e => hk (e ▸ List.mem_map_of_mem hx)

@[simp] theorem setOpt_children (e : Element) (k : String) (v : Option Str) : (e.setOpt k v).children = e.children := by
  cases v <;> rfl

theorem mem_ifAny {α : Type} {k : String} {P : α → Str → Prop} {o : Option α} {x : String × (Str → Prop)}
    (h : x ∈ ifAny k P o) : x.1 = k := by
  cases o with
  | none => cases h
  | some a => rw [List.mem_singleton.1 h]

/-! ## Elements -/

theorem advance_written (w : Nat) : AdvanceWritten w (advanceXml w) :=
  ⟨rfl, rfl, attrs_set (attrs_none _ _) _ _ _ (by simp) ((numeral_iff (by decide) _ _).2 (parseNat_toDigits (by decide) (by decide) w))⟩

theorem unicode_written (c : Char) : UnicodeWritten c (unicodeXml c) :=
  ⟨rfl, rfl, attrs_set (attrs_none _ _) _ _ _ (by simp) (C11_canonical c).2.1⟩

theorem anchor_written (a : Anchor) : AnchorWritten a (anchorXml a) := by
  refine ⟨by simp, by simp [anchorXml], ?_⟩
  have h := attrs_setOpt (attrs_set (attrs_set (attrs_none "anchor" []) "x" _ (FloatText b32 · a.x) (by simp) (floatText_show a.x))
    "y" _ (FloatText b32 · a.y) (by simp) (floatText_show a.y)) "name" a.cls id Verbatim (by simp) fun _ => rfl
  rw [Option.map_id] at h
  exact h

theorem matrix_written {e : Element} {l : List (String × (Str → Prop))} (h : AttrsAre e l) (m : Mat6) (i : Option Str)
    (hl : ∀ x ∈ l, x.1 ∉ ["identifier", "xScale", "xyScale", "yxScale", "yScale", "xOffset", "yOffset"]) :
    AttrsAre (writeMatrix e m i) (l ++ coefficients m ++ ifAny "identifier" Verbatim i) := by
  have hk : ∀ k ∈ ["identifier", "xScale", "xyScale", "yxScale", "yScale", "xOffset", "yOffset"], ∀ x ∈ l, x.1 ≠ k :=
    fun k hk x hx e => hl x hx (e ▸ hk)
  have hi : ∀ x ∈ ifAny "identifier" Verbatim i, x.1 = "identifier" := fun x hx => mem_ifAny hx
  have h0 := attrs_setOpt h "identifier" i id Verbatim (hk _ (by simp)) fun _ => rfl
  rw [Option.map_id] at h0
  have h1 := attrs_set h0 "xScale" _ (Denotes · m.xScale) (by
    intro x hx
    rcases List.mem_append.1 hx with hx | hx
    · exact hk _ (by simp) x hx
    · rw [hi x hx]; decide) (denotes_text _)
  have nk : ∀ (k : String) (l' : List (String × (Str → Prop))),
      k ∈ ["xScale", "xyScale", "yxScale", "yScale", "xOffset", "yOffset"] → (∀ x ∈ l', x.1 ≠ k) →
      ∀ x ∈ l ++ ifAny "identifier" Verbatim i ++ l', x.1 ≠ k := by
    intro k l' hkk hl' x hx
    rcases List.mem_append.1 hx with hx | hx
    · rcases List.mem_append.1 hx with hx | hx
      · exact hk _ (List.mem_cons_of_mem _ hkk) x hx
      · rw [hi x hx]; rintro rfl; revert hkk; decide
    · exact hl' x hx
  have h2 := attrs_set h1 "xyScale" _ (Denotes · m.xyScale) (nk _ _ (by simp) (by simp)) (denotes_text _)
  rw [List.append_assoc (l ++ _)] at h2
  have h3 := attrs_set h2 "yxScale" _ (Denotes · m.yxScale) (nk _ _ (by simp) (by simp)) (denotes_text _)
  rw [List.append_assoc (l ++ _)] at h3
  have h4 := attrs_set h3 "yScale" _ (Denotes · m.yScale) (nk _ _ (by simp) (by simp)) (denotes_text _)
  rw [List.append_assoc (l ++ _)] at h4
  have h5 := attrs_set h4 "xOffset" _ (Denotes · m.xOffset) (nk _ _ (by simp) (by simp)) (denotes_text _)
  rw [List.append_assoc (l ++ _)] at h5
  have h6 := attrs_set h5 "yOffset" _ (Denotes · m.yOffset) (nk _ _ (by simp) (by simp)) (denotes_text _)
  rw [List.append_assoc (l ++ _)] at h6
  refine attrs_perm h6 fun x => ?_
  simp only [List.mem_append, coefficients, List.cons_append, List.nil_append]
  tauto

theorem image_written (i : GlifImage) : ImageWritten i (imageXml i) := by
  refine ⟨by simp, by simp [imageXml, writeMatrix], ?_⟩
  exact matrix_written (attrs_set (attrs_none "image" []) "fileName" _ (Verbatim i.filename) (by simp) rfl) _ _ (by simp)

theorem component_written (c : GlifComponent) : ComponentWritten c (componentXml c) := by
  refine ⟨by simp, by simp [componentXml, writeMatrix], ?_⟩
  exact matrix_written (attrs_set (attrs_none "component" []) "base" _ (Verbatim c.base) (by simp) rfl) _ _ (by simp)

theorem guideline_written (g : Guideline) : GuidelineWritten g (guidelineXml g) := by
  refine ⟨by simp, by simp [guidelineXml], ?_⟩
  have h := attrs_set (attrs_set (attrs_set (attrs_none "guideline" []) "x" _ (FloatText b32 · g.x) (by simp) (floatText_show g.x))
    "y" _ (FloatText b32 · g.y) (by simp) (floatText_show g.y)) "angle" _ (Denotes · g.angle) (by simp) (denotes_text _)
  have h1 := attrs_setOpt h "color" g.color Color.text ColorDenoted (by simp) colorText_text
  have h2 := attrs_setOpt h1 "name" g.name id Verbatim (by
    intro x hx
    rcases List.mem_append.1 hx with hx | hx
    · exact key_ne hx (by simp)
    · rw [mem_ifAny hx]; decide) fun _ => rfl
  have h3 := attrs_setOpt h2 "identifier" g.identifier id Verbatim (by
    intro x hx
    rcases List.mem_append.1 hx with hx | hx
    · rcases List.mem_append.1 hx with hx | hx
      · exact key_ne hx (by simp)
      · rw [mem_ifAny hx]; decide
    · rw [mem_ifAny hx]; decide) fun _ => rfl
  rw [Option.map_id] at h3
  exact h3

theorem point_written (p : GlifPoint) (hp : Writable p.ptype) : PointWritten p (pointXml p) := by
  have ht : (if p.ptype.text = "offcurve".toList then none else some p.ptype.text) = (typeName p.ptype).map String.toList := by
    rcases hp with h | h | h | h | h <;> rw [h] <;> decide
  have e : pointXml p = ((((({ name := "point" } : Element).set "x" p.x.text).set "y" p.y.text).setOpt "type"
      ((typeName p.ptype).map String.toList)).setOpt "name" p.name).setOpt "smooth" (if p.smooth then some "yes".toList else none) := by
    rw [← ht]
    unfold pointXml
    generalize "offcurve".toList = oc
    generalize "yes".toList = yes
    simp only []
    split <;> split <;> rfl
  refine ⟨by simp, by rw [e]; simp, ?_⟩
  rw [e]
  have h := attrs_set (attrs_set (attrs_none "point" []) "x" _ (Denotes · p.x) (by simp) (denotes_text p.x))
    "y" _ (Denotes · p.y) (by simp) (denotes_text p.y)
  have h1 := attrs_setOpt h "type" (typeName p.ptype) String.toList (fun t s => s = t.toList) (by simp) fun _ => rfl
  have h2 := attrs_setOpt h1 "name" p.name id Verbatim (by
    intro x hx
    rcases List.mem_append.1 hx with hx | hx
    · exact key_ne hx (by simp)
    · rw [mem_ifAny hx]; decide) fun _ => rfl
  rw [Option.map_id] at h2
  cases hs : p.smooth with
  | false => simpa [Element.setOpt] using h2
  | true =>
    refine attrs_set h2 "smooth" _ (Verbatim "yes".toList) ?_ rfl
    intro x hx
    rcases List.mem_append.1 hx with hx | hx
    · rcases List.mem_append.1 hx with hx | hx
      · exact key_ne hx (by simp)
      · rw [mem_ifAny hx]; decide
    · rw [mem_ifAny hx]; decide

/-! ## Contours -/

theorem mem_written {q p : Point PD} {g : GlifPoint} (h : g ∈ written q p) (hp : Writable p.ptype) : Writable g.ptype := by
  unfold written at h
  split at h
  · cases h
  · rcases List.mem_append.1 h with h | h
    · unfold offsBefore at h
      split at h <;> simp only [List.mem_cons, List.not_mem_nil, or_false] at h
      · rcases h with rfl | rfl <;> simp [off, Writable]
      · subst h; simp [off, Writable]
    · rw [List.mem_singleton.1 h]; exact hp

theorem fileCycle_writable {c : Contour PD} (hw : ∀ p ∈ c, Writable p.ptype) : ∀ g ∈ fileCycle c, Writable g.ptype := by
  intro g hg
  unfold fileCycle at hg
  obtain ⟨⟨q, p⟩, h1, h2⟩ := List.mem_flatMap.1 hg
  refine mem_written h2 (hw p ?_)
  unfold cyclicPairs at h1
  split at h1
  · exact (List.of_mem_zip h1).2
  · cases h1

theorem contour_written {c : Contour PD} {e : Element} (hc : Savable c) (h : contourXml c = .ok e) : ContourWritten c e := by
  have hw : ∀ p ∈ c, Writable p.ptype := by
    intro p hp
    have := hc.2 p hp
    unfold Writable
    cases hpt : p.ptype <;> simp_all
  obtain ⟨p, ps, h1, h2, h3⟩ := C05_file_points c hc.1 hw
  unfold contourXml at h
  rw [h1] at h
  cases h
  refine ⟨p, ps, (p :: ps).map pointXml, h2, h3, ?_, rfl, rfl, ?_⟩
  · refine List.forall₂_map_right_iff.2 (List.forall₂_same.2 fun g hg => point_written g (fileCycle_writable hw g ?_))
    obtain ⟨s, t, e1, e2⟩ := h2
    rw [e2] at hg
    rw [e1]
    simp only [List.mem_append] at hg ⊢
    exact hg.symm
  · simp [glifContourXml, Element.node]

/-! ## Glyphs -/

theorem forall₂_map_self {α : Type} {R : α → Element → Prop} (f : α → Element) (h : ∀ a, R a (f a)) (l : List α) :
    List.Forall₂ R l (l.map f) :=
  List.forall₂_map_right_iff.2 (List.forall₂_same.2 fun a _ => h a)

theorem lib_children (pio : PlistIO D) (l : Lib D) :
    List.Forall₂ LibWritten (libOf pio l).toList (libXml pio l).toList := by
  cases l with
  | plist d =>
    simp only [libOf, libXml]
    cases pio.toXml d with
    | none => exact .nil
    | some e => exact .cons ⟨rfl, rfl, rfl⟩ .nil
  | xml e => exact .cons ⟨rfl, rfl, rfl⟩ .nil
  | none => exact .nil

/-- **C95.** The document written for a glyph says what the glyph says and nothing else: the elements of every kind
are those of the glyph in order, each with exactly the attributes that have a value, and the texts of the numbers
denote exactly the numbers. -/
theorem C95_written (pio : PlistIO D) (g : Glif PD D) (root : Element) (h : glifXml pio g = .ok root) :
    Wrote pio g root := by
  have hs := (C94_written pio g).1 ⟨root, h⟩
  rw [glifXml_eq] at h
  obtain ⟨oe, ho, h⟩ := bind_eq_ok.1 h
  cases h
  obtain ⟨els, rfl, hels⟩ := outlineElem_parts ho
  have hcs : List.Forall₂ ContourWritten (g.outline.getD []) els := by
    have : ∀ (o : Outline PD) (es : List Element), (∀ c ∈ o, Savable c) →
        List.Forall₂ (fun c e => contourXml c = .ok e) o es → List.Forall₂ ContourWritten o es := by
      intro o es hsv hf
      induction hf with
      | nil => exact .nil
      | cons he _ ih =>
        exact .cons (contour_written (hsv _ List.mem_cons_self) he) (ih fun c hc => hsv c (List.mem_cons_of_mem _ hc))
    exact this _ _ hs hels
  have hnm := fun n => written_named pio g ({ name := "outline", children := els.map Element.node } : Element) n
  refine ⟨rfl, ?_, ?_, ?_, ?_, ?_, ?_, ?_, ?_, ?_, ?_⟩
  · exact attrs_set (attrs_set (attrs_none "glyph" _) "name" _ (Verbatim g.name) (by simp) rfl) "format" _
      (Verbatim "2".toList) (by simp) rfl
  · intro c hc
    simp only [writtenKids, List.mem_append, List.mem_map] at hc
    have key : ∀ e : Element, e.name ∈ glyphNames → ∃ n ∈ glyphNames, ∃ a b, e.node = Node.elem n a b :=
      fun e he => ⟨e.name, he, e.attrs, e.children, rfl⟩
    rcases hc with ((((((⟨a, -, rfl⟩ | ⟨a, -, rfl⟩) | ⟨a, -, rfl⟩) | hc) | ⟨a, -, rfl⟩) | ⟨a, -, rfl⟩) | ⟨a, -, rfl⟩) | ⟨a, ha, rfl⟩
    · exact key _ (by simp [glyphNames])
    · exact key _ (by simp [glyphNames])
    · exact key _ (by simp [glyphNames])
    · split at hc
      · rw [List.mem_singleton.1 hc]; exact key _ (by simp [glyphNames])
      · cases hc
    · exact key _ (by simp [glyphNames])
    · exact key _ (by simp [glyphNames])
    · exact key _ (by simp [glyphNames, noteXml])
    · refine key _ ?_
      rw [libXml_name (Option.mem_toList.1 ha)]
      simp [glyphNames]
  · simp only [hnm, String.reduceEq, if_true, if_false, List.append_nil, ite_self]
    exact forall₂_map_self _ advance_written _
  · simp only [hnm, String.reduceEq, if_true, if_false, List.nil_append, List.append_nil, ite_self]
    exact forall₂_map_self _ unicode_written _
  · simp only [hnm, String.reduceEq, if_true, if_false, List.nil_append, List.append_nil, ite_self]
    exact forall₂_map_self _ anchor_written _
  · simp only [hnm, String.reduceEq, if_true, if_false, List.nil_append, List.append_nil]
    split
    · next hl =>
      refine Or.inr ⟨?_, _, els, g.components.vec.map componentXml, rfl, ⟨rfl, rfl, ?_⟩, hcs, forall₂_map_self _ component_written _⟩
      · by_contra hh
        simp only [not_or, not_not] at hh
        rw [hh.1] at hcs
        cases hcs
        simp [hh.2] at hl
      · simp [Element.node, Function.comp_def]
    · next hl =>
      refine Or.inl ?_
      have h0 : els = [] ∧ g.components.vec = [] := by
        constructor
        · cases els with
          | nil => rfl
          | cons a l => simp at hl
        · cases hv : g.components.vec with
          | nil => rfl
          | cons a l => simp [hv] at hl
      rw [h0.1] at hcs
      refine ⟨?_, h0.2, rfl⟩
      generalize g.outline.getD [] = o at hcs
      cases hcs
      rfl
  · simp only [hnm, String.reduceEq, if_true, if_false, List.nil_append, List.append_nil, ite_self]
    exact forall₂_map_self _ image_written _
  · simp only [hnm, String.reduceEq, if_true, if_false, List.nil_append, List.append_nil, ite_self]
    exact forall₂_map_self _ guideline_written _
  · simp only [hnm, String.reduceEq, if_true, if_false, List.nil_append, List.append_nil, ite_self]
    exact forall₂_map_self _ (fun _ => ⟨rfl, rfl, rfl⟩) _
  · simp only [hnm, String.reduceEq, if_true, if_false, List.nil_append, List.append_nil, ite_self]
    exact lib_children pio g.lib

/-- A glyph with a contour, a code point, an anchor, a guideline and a component is written. -/
example (pio : PlistIO Unit) : ∃ (g : Glif Unit Unit) (root : Element), glifXml pio g = .ok root ∧ Wrote pio g root ∧
    g.unicode = ['A'] ∧ g.width = some 500 ∧ g.anchors.length = 1 ∧ g.guidelines.length = 1 ∧ g.components.vec.length = 1 := by
  let g : Glif Unit Unit :=
    { outline := some [[Sample.pt .line 0 0, Sample.cv 10 0 20 0 5 5]]
      anchors := [{ x := Sample.f 1, y := Sample.f 2, cls := some "top".toList, atype := .base }]
      components := { root := "A".toList, vec := [{ GlifComponent.new with base := "B".toList }] }
      guidelines := [{ x := Sample.f 1, y := Sample.f 2, angle := .int 90, name := none, identifier := none, color := none }]
      images := [], width := some 500, unicode := ['A'], name := "A".toList, note := none, filename := none, lib := .none }
  obtain ⟨root, h⟩ := (C94_written pio g).2 (by
    intro c hc
    rw [List.mem_singleton.1 hc]
    refine ⟨⟨_, List.mem_cons_self .., by simp [Sample.pt]⟩, ?_⟩
    simp [Sample.pt, Sample.cv])
  exact ⟨g, root, h, C95_written pio g root h, rfl, rfl, rfl, rfl, rfl⟩

end GP
