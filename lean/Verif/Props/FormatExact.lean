import Verif.Props.FormatRead
/-!
# C88, C90: exactly when a document of the format is written
-/
open Fl Fl.Text
namespace GP
open Spec
variable {PD D : Type}

/-! ## Numbers written -/

theorem number_show {x : F32} (h : SomeNumber (showFloat x)) : IsFinite x := by
  obtain ⟨neg, m, fl, hp⟩ := h
  have e := (floatText_plain hp).symm.trans (parseFloat_showFloat b32_p x)
  cases x with
  | nan => cases e
  | num s k hk =>
    refine ⟨s, k, hk, rfl, ?_⟩
    rintro rfl
    have ht : showFloat (Flt.num s b32.inf hk) = if s then '-' :: "inf".toList else "inf".toList := by
      show (if s then '-' :: showMag b32 b32.inf else showMag b32 b32.inf) = _
      rw [show showMag b32 b32.inf = "inf".toList by unfold showMag; rw [if_pos rfl]]
    rw [ht] at hp
    obtain ⟨body, hs, hm⟩ := hp
    have hi : body = "inf".toList ∨ body = '-' :: "inf".toList := by
      cases s <;> rcases hs with ⟨h, -⟩ | ⟨h, -⟩
      · exact absurd (List.cons.inj h).1 (by decide)
      · exact .inl h.symm
      · exact .inl (List.cons.inj h).2.symm
      · exact .inr h.symm
    rcases hi with rfl | rfl
    · rcases mantissa_head hm with h | h <;> exact absurd h (by decide)
    · rcases mantissa_head hm with h | h <;> exact absurd h (by decide)

theorem number_text {x : IOF} (h : SomeNumber x.text) : IsFiniteIof x := by
  cases x with
  | int i hi => exact .inl ⟨i, hi, rfl⟩
  | float f => exact .inr ⟨f, rfl, number_show h⟩

theorem upTo_text {n k : Nat} (hb : Bound n k) {x : IOF} (h : UpTo n x.text) : Within n x := by
  cases x with
  | int i hi =>
    refine upTo_int hi h ?_
    rcases (C79_number _ _).1 (IOF.parse_int i hi) with ⟨j, hj, e, ht⟩ | ⟨-, x, e, -⟩
    · cases e; exact ht
    · cases e
  | float f => exact upTo_float hb h ((C79_float b32_p2 _ _).1 (parseFloat_showFloat b32_p f))

theorem color_text {c : Color} (h : ColorText c.text) : ColorWithin c := by
  obtain ⟨r, g, b, a, h4, ur, ug, ub, ua⟩ := h
  obtain ⟨l, e1⟩ := (splitOn_four _ _ _ _ _).2 (fourFields_onlyFour h4)
  obtain ⟨l', e2⟩ := (splitOn_four _ _ _ _ _).2 (fourFields_onlyFour
    (show OnlyFour c.text c.r.text c.g.text c.b.text c.a.text from ⟨text_no_comma _, text_no_comma _, text_no_comma _, text_no_comma _, rfl⟩))
  rw [e1] at e2
  cases e2
  exact ⟨upTo_text bound_one ur, upTo_text bound_one ug, upTo_text bound_one ub, upTo_text bound_one ua⟩

theorem matrix_numbers {e : Element} {m : Mat6} {id : Option Str} (h : ∀ k ∈ matrixAttrs, May (writeMatrix e m id) k SomeNumber) : FiniteMatrix m := by
  obtain ⟨g1, g2, g3, g4, g5, g6⟩ := matrix_get e m id
  exact ⟨number_text (h _ (by decide) _ g1), number_text (h _ (by decide) _ g2), number_text (h _ (by decide) _ g3),
    number_text (h _ (by decide) _ g4), number_text (h _ (by decide) _ g5), number_text (h _ (by decide) _ g6)⟩

theorem need_number {e : Element} {k : String} {s : Str} {P : Str → Prop} (h : Needs e k P) (hk : e.get k = some s) : P s := by
  obtain ⟨t, h1, h2⟩ := h
  cases hk.symm.trans h1
  exact h2

/-! ## Documents written -/

theorem conforms_formed (pio : PlistIO D) (g : Glif PD D) (root : Element) (hr : glifXml pio g = .ok root) (h : Conforms SomeNumber root) :
    Formed g ∧ FiniteWritten g := by
  obtain ⟨els, kids, he, hkids, hroot, hcs, hps, hid⟩ := written_setup pio g root hr
  have hk : ∀ n, named n root.children = named n (writtenKids pio g { name := "outline", children := els.map Element.node }) := by
    intro n; rw [hroot, hkids]
  have k3 := (hk "anchor").trans (written_named pio g _ "anchor")
  have k5 := (hk "image").trans (written_named pio g _ "image")
  have k6 := (hk "guideline").trans (written_named pio g _ "guideline")
  simp only [String.reduceEq, if_true, if_false, List.nil_append, List.append_nil, ite_self] at k3 k5 k6
  have hol : ∀ c ∈ els, ContourForm SomeNumber c := by
    intro c hc
    rw [← hcs] at hc
    unfold contoursOf at hc
    split at hc
    · next o ho => exact (h.outline o (List.mem_of_head? ho)).2.2.1 c hc
    · cases hc
  have hcp : ∀ c ∈ g.components.vec, ComponentForm SomeNumber (componentXml c) := by
    intro c hc
    have hc : componentXml c ∈ componentsOf root := by rw [hps]; exact List.mem_map.2 ⟨c, hc, rfl⟩
    unfold componentsOf at hc
    split at hc
    · next o ho => exact (h.outline o (List.mem_of_head? ho)).2.2.2 _ hc
    · cases hc
  have hout : ∀ o, g.outline = some o → ∀ c ∈ o, ∃ e ∈ els, contourXml c = .ok e := by
    intro o ho c hc
    rw [ho] at he
    exact forall₂_mem_left he hc
  have hin : ∀ i ∈ g.images, ImageForm SomeNumber (imageXml i) := fun i hi => h.image _ (by rw [k5]; exact List.mem_map.2 ⟨i, hi, rfl⟩)
  have hgl : ∀ l ∈ g.guidelines, GuidelineForm SomeNumber (guidelineXml l) := fun l hl =>
    h.guideline _ (by rw [k6]; exact List.mem_map.2 ⟨l, hl, rfl⟩)
  refine ⟨⟨?_, ?_, ?_, ?_, ?_, ?_, ?_, ?_⟩, ⟨?_, ?_, ?_, ?_, ?_⟩⟩
  · refine need_number h.name ?_
    rw [hroot]
    show ((({ name := "glyph" } : Element).set "name" g.name).set "format" "2".toList).get "name" = _
    simp
  · have := h.once "image" (by simp)
    rwa [k5, List.length_map] at this
  · intro i hi
    obtain ⟨h1, h2, -, -⟩ := hin i hi
    refine ⟨need_number (s := i.filename) h2 (by simp [imageXml, writeMatrix]), ?_⟩
    cases hid : i.identifier with
    | none => rfl
    | some s => exact absurd (h1 "identifier" s (by simp [imageXml, writeMatrix, hid])) (by decide)
  · intro l hl
    obtain ⟨-, -, -, ha, hc, -⟩ := hgl l hl
    refine ⟨upTo_text bound_360 (ha _ (by simp [guidelineXml])).2, fun c hcl => color_text (hc _ ?_)⟩
    simp [guidelineXml, hcl]
  · intro c hc
    exact need_number (hcp c hc).2.1 (by simp [componentXml, writeMatrix])
  · rw [← hid]; exact h.identifiers
  · rw [← hid]; exact h.unique
  · intro o ho c hc p hp hmv
    obtain ⟨e, hee, hce⟩ := hout o ho c hc
    obtain ⟨hw, -, -, hrot, hn, -⟩ := contour_order hce
    have hpm := List.mem_of_mem_tail hp
    have hs : p.ptype = .offcurve → p.smooth = false := fun ho => by rw [hmv] at ho; cases ho
    have hwp : Writable p.ptype := by rw [hmv]; exact .inl rfl
    refine (hol e hee).2.2.2.1 (pointXml p) ?_ ((point_types p hwp hs).1.1 hmv)
    rw [hn, ← List.map_tail]
    exact List.mem_map.2 ⟨p, hp, rfl⟩
  · intro a ha
    obtain ⟨-, hx, hy, -⟩ := h.anchor (anchorXml a) (by rw [k3]; exact List.mem_map.2 ⟨a, ha, rfl⟩)
    exact ⟨number_show (need_number hx (by simp [anchorXml])), number_show (need_number hy (by simp [anchorXml]))⟩
  · intro i hi
    exact matrix_numbers (hin i hi).2.2.2
  · intro l hl
    obtain ⟨-, hx, hy, ha, -⟩ := hgl l hl
    exact ⟨number_show (hx _ (by simp [guidelineXml])), number_show (hy _ (by simp [guidelineXml])), number_text (ha _ (by simp [guidelineXml])).1⟩
  · intro c hc
    exact matrix_numbers (hcp c hc).2.2
  · intro o ho c hc p hp
    obtain ⟨e, hee, hce⟩ := hout o ho c hc
    obtain ⟨-, -, -, -, hn, -⟩ := contour_order hce
    obtain ⟨-, hx, hy, -⟩ := (hol e hee).2.2.1 (pointXml p) (by rw [hn]; exact List.mem_map.2 ⟨p, hp, rfl⟩)
    obtain ⟨g1, g2, -⟩ := pointXml_get p
    exact ⟨number_text (need_number hx g1), number_text (need_number hy g2)⟩

/-- **C88**, exactly: a glyph is written as a document in the format if and only if it is formed for the format and the
numbers that come to be written are finite.  Its numbers then are not beyond the largest `f32` either. -/
theorem C88_exact (pio : PlistIO D) (g : Glif PD D) (hwd : ∀ w, g.width = some w → w < 2 ^ 64) (root : Element) (hr : glifXml pio g = .ok root) :
    (Conforms SomeNumber root ↔ Formed g ∧ FiniteWritten g) ∧ (Conforms Representable root ↔ Formed g ∧ FiniteWritten g) :=
  ⟨⟨conforms_formed pio g root hr, fun ⟨h1, h2⟩ => conforms_mono (fun _ => representable_some) (formed_written pio g hwd h1 h2 root hr)⟩,
    ⟨fun h => conforms_formed pio g root hr (conforms_mono (fun _ => representable_some) h), fun ⟨h1, h2⟩ => formed_written pio g hwd h1 h2 root hr⟩⟩

theorem iofIn_any (x : IOF) : IofIn (fun _ => True) x := by
  cases x with
  | int i h => exact .inl ⟨i, h, rfl⟩
  | float f => exact .inr ⟨f, rfl, trivial⟩

/-- What was read from a document of the format, with any numbers, is formed for it if it can be written. -/
theorem read_formed (mid : IOF → IOF → IOF) (pio pio' : PlistIO D) (ped : Pedantry) (root out : Element) (g : Glif PD D)
    (h : Conforms SomeNumber root) (hr : readGlif mid pio ped root = .ok g) (hw : glifXml pio' g = .ok out) :
    Formed g ∧ ∀ w, g.width = some w → w < 2 ^ 64 := by
  have hf := read_fitsIn tells_some mid pio ped root g hr h fun _ _ _ _ _ => iofIn_any _
  obtain ⟨els, -, he, -⟩ := written_setup pio' g out hw
  refine ⟨⟨hf.name, hf.image, fun i hi => ⟨(hf.images i hi).1, (hf.images i hi).2.1⟩, fun l hl => (hf.guidelines l hl).2.2.2,
    fun c hc => (hf.components c hc).1, hf.identifiers, hf.unique, ?_⟩, hf.width⟩
  intro o ho c hcm p hp
  rw [ho] at he
  obtain ⟨e, -, hce⟩ := forall₂_mem_left he hcm
  obtain ⟨hwr, hi, ⟨x, r, hx⟩, -⟩ := contour_order hce
  rw [hx] at hp hi
  exact written_moves (hf.moves o ho c hcm) hwr hi p hp

/-- **C90**, exactly: a document of the format that is read and written again is still a document of the format if and only
if all numbers that come to be written are finite. -/
theorem C90_exact (mid : IOF → IOF → IOF) (pio pio' : PlistIO D) (ped : Pedantry) (root out : Element) (g : Glif PD D)
    (h : Conforms SomeNumber root) (hr : readGlif mid pio ped root = .ok g) (hw : glifXml pio' g = .ok out) :
    Conforms SomeNumber out ↔ FiniteWritten g := by
  obtain ⟨hf, hwd⟩ := read_formed mid pio pio' ped root out g h hr hw
  rw [(C88_exact pio' g hwd out hw).1]
  exact and_iff_right hf

end GP
