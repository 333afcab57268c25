import Verif.Spec.FormatFile
import Verif.Props.FormatExact
import Verif.Props.Reopen
/-!
# C143: files of the format stay so
-/
open Fl Fl.Text
namespace GP
open Spec Plist
variable {PD D L : Type}

/-! ## An empty note -/

theorem note_conforms {num : Str → Prop} {e e' : Element} (hn : NoteMore e e') : Conforms num e' ↔ Conforms num e := by
  rcases hn with rfl | ⟨front, lib, hf, hl, hc, rfl⟩
  · exact Iff.rfl
  · have hother : ∀ m, m ≠ "note" → named m (front.map Element.node ++ [.elem "note" [] []] ++ lib) = named m e.children := by
      intro m hm
      rw [hc, named_append, named_append, named_append, named_cons_elem, if_neg fun e => hm e.symm]
      simp
    have hcomp : componentsOf ({ e with children := front.map Element.node ++ [.elem "note" [] []] ++ lib } : Element) = componentsOf e := by
      unfold componentsOf; simp only [hother "outline" (by decide)]
    have hcont : contoursOf ({ e with children := front.map Element.node ++ [.elem "note" [] []] ++ lib } : Element) = contoursOf e := by
      unfold contoursOf; simp only [hother "outline" (by decide)]
    have hid : identified ({ e with children := front.map Element.node ++ [.elem "note" [] []] ++ lib } : Element) = identified e := by
      unfold identified
      rw [hcomp, hcont]
      simp only [hother "guideline" (by decide), hother "anchor" (by decide)]
    have hch : OnlyElements glyphNames (front.map Element.node ++ [.elem "note" [] []] ++ lib) ↔ OnlyElements glyphNames e.children := by
      rw [hc]
      constructor
      · intro h c hm
        exact h c (by rcases List.mem_append.1 hm with hm | hm <;> simp [hm])
      · intro h c hm
        simp only [List.append_assoc, List.mem_append, List.mem_singleton] at hm
        rcases hm with hm | rfl | hm
        · exact h c (by simp [hm])
        · show "note" ∈ glyphNames; decide
        · exact h c (by simp [hm])
    have honce : ∀ n, (named n (front.map Element.node ++ [.elem "note" [] []] ++ lib)).length ≤ 1 ↔ (named n e.children).length ≤ 1 := by
      intro n
      by_cases hnn : n = "note"
      · subst hnn
        rw [hc, named_append, named_append, named_append, named_front front hf, hl, named_cons_elem, if_pos rfl]
        simp [named]
      · rw [hother n hnn]
    constructor
    · intro h
      exact ⟨h.tag, h.attrs, h.name, h.format, hch.1 h.children, fun n hm => (honce n).1 (h.once n hm),
        by rw [← hother _ (by decide)]; exact h.advance, by rw [← hother _ (by decide)]; exact h.unicode,
        by rw [← hother _ (by decide)]; exact h.image, by rw [← hother _ (by decide)]; exact h.guideline,
        by rw [← hother _ (by decide)]; exact h.anchor, by rw [← hother _ (by decide)]; exact h.outline,
        by rw [← hid]; exact h.identifiers, by rw [← hid]; exact h.unique⟩
    · intro h
      exact ⟨h.tag, h.attrs, h.name, h.format, hch.2 h.children, fun n hm => (honce n).2 (h.once n hm),
        by rw [hother _ (by decide)]; exact h.advance, by rw [hother _ (by decide)]; exact h.unicode,
        by rw [hother _ (by decide)]; exact h.image, by rw [hother _ (by decide)]; exact h.guideline,
        by rw [hother _ (by decide)]; exact h.anchor, by rw [hother _ (by decide)]; exact h.outline,
        by rw [hid]; exact h.identifiers, by rw [hid]; exact h.unique⟩

/-! ## What is heard of a glyph -/

theorem name_untab {n : Str} (h : IsName n) : untab n = n := untab_eq fun ht => h.2 _ ht (by decide)

theorem identifier_untab {s : Str} (h : IsIdentifier s) : untab s = s := untab_eq fun ht => absurd (h.2.2 _ ht).1 (by decide)

theorem order_spoken {c : Contour PD} {e : Element} (h : contourXml c = .ok e) : fileOrder (c.map spokenPoint) = (fileOrder c).map spokenFile := by
  obtain ⟨-, h1, -⟩ := contour_order h
  have h2 := glifpoints_spoken c _ h1
  have h3 : contourXml (c.map spokenPoint) = .ok (glifContourXml ((fileOrder c).map spokenFile)) := by
    unfold contourXml; rw [h2]; rfl
  obtain ⟨-, h4, -⟩ := contour_order h3
  exact Out.ok.inj (h4.symm.trans h2)

theorem spoken_formed {g : Glif PD D} (hw : ∀ o, g.outline = some o → ∀ c ∈ o, ∃ e, contourXml c = .ok e) (h : Formed g) : Formed (spoken g) := by
  have hid : ∀ s ∈ g.guidelines.filterMap (·.identifier) ++ g.components.vec.filterMap (·.identifier), untab s = s :=
    fun s hs => identifier_untab (h.identifiers s hs)
  have h1 : (spoken g).guidelines.filterMap (·.identifier) = g.guidelines.filterMap (·.identifier) := by
    show List.filterMap _ (List.map _ _) = _
    rw [List.filterMap_map]
    refine List.filterMap_congr fun l hl => ?_
    show l.identifier.map untab = l.identifier
    cases hi : l.identifier with
    | none => rfl
    | some s => rw [Option.map_some, hid s (List.mem_append_left _ (List.mem_filterMap.2 ⟨l, hl, hi⟩))]
  have h2 : (spoken g).components.vec.filterMap (·.identifier) = g.components.vec.filterMap (·.identifier) := by
    show List.filterMap _ (List.map _ _) = _
    rw [List.filterMap_map]
    refine List.filterMap_congr fun l hl => ?_
    show l.identifier.map untab = l.identifier
    cases hi : l.identifier with
    | none => rfl
    | some s => rw [Option.map_some, hid s (List.mem_append_right _ (List.mem_filterMap.2 ⟨l, hl, hi⟩))]
  refine ⟨?_, ?_, ?_, ?_, ?_, ?_, ?_, ?_⟩
  · show IsName (untab g.name)
    rw [name_untab h.name]; exact h.name
  · show (List.map _ g.images).length ≤ 1
    rw [List.length_map]; exact h.image
  · intro i hi
    obtain ⟨j, hj, rfl⟩ := List.mem_map.1 hi
    obtain ⟨a, b⟩ := h.images j hj
    refine ⟨?_, ?_⟩
    · show untab j.filename ≠ []
      simpa [untab] using a
    · show j.identifier.map untab = none
      rw [b]; rfl
  · intro l hl
    obtain ⟨k, hk, rfl⟩ := List.mem_map.1 hl
    exact h.guidelines k hk
  · intro c hc
    obtain ⟨d, hd, rfl⟩ := List.mem_map.1 hc
    have a := h.components d hd
    show IsName (untab d.base)
    rw [name_untab a]; exact a
  · rw [h1, h2]; exact h.identifiers
  · rw [h1, h2]; exact h.unique
  · intro o ho c hc p hp
    obtain ⟨o', ho', rfl⟩ := Option.map_eq_some_iff.1 ho
    obtain ⟨c', hc', rfl⟩ := List.mem_map.1 hc
    obtain ⟨e, he⟩ := hw o' ho' c' hc'
    rw [order_spoken he, ← List.map_tail] at hp
    obtain ⟨q, hq, rfl⟩ := List.mem_map.1 hp
    exact h.moves o' ho' c' hc' q hq

theorem spoken_finite {g : Glif PD D} (hw : ∀ o, g.outline = some o → ∀ c ∈ o, ∃ e, contourXml c = .ok e) :
    FiniteWritten (spoken g) ↔ FiniteWritten g := by
  constructor
  · intro h
    refine ⟨fun a ha => ?_, fun i hi => ?_, fun l hl => ?_, fun c hc => ?_, ?_⟩
    · have := h.anchors { a with cls := a.cls.map untab } (List.mem_map.2 ⟨a, ha, rfl⟩)
      exact this
    · have := h.images { i with filename := untab i.filename, identifier := i.identifier.map untab } (List.mem_map.2 ⟨i, hi, rfl⟩)
      exact this
    · have := h.guidelines { l with name := l.name.map untab, identifier := l.identifier.map untab } (List.mem_map.2 ⟨l, hl, rfl⟩)
      exact this
    · have := h.components { c with base := untab c.base, identifier := c.identifier.map untab } (List.mem_map.2 ⟨c, hc, rfl⟩)
      exact this
    intro o ho c hc p hp
    obtain ⟨e, he⟩ := hw o ho c hc
    refine h.points (o.map fun c => c.map spokenPoint) ?_ (c.map spokenPoint) (List.mem_map.2 ⟨c, hc, rfl⟩) (spokenFile p) ?_
    · show g.outline.map _ = _
      rw [ho]; rfl
    · rw [order_spoken he]; exact List.mem_map.2 ⟨p, hp, rfl⟩
  · intro h
    refine ⟨?_, ?_, ?_, ?_, ?_⟩
    · intro a ha
      obtain ⟨b, hb, rfl⟩ := List.mem_map.1 ha
      exact h.anchors b hb
    · intro i hi
      obtain ⟨j, hj, rfl⟩ := List.mem_map.1 hi
      exact h.images j hj
    · intro l hl
      obtain ⟨k, hk, rfl⟩ := List.mem_map.1 hl
      exact h.guidelines k hk
    · intro c hc
      obtain ⟨d, hd, rfl⟩ := List.mem_map.1 hc
      exact h.components d hd
    · intro o ho c hc p hp
      obtain ⟨o', ho', rfl⟩ := Option.map_eq_some_iff.1 ho
      obtain ⟨c', hc', rfl⟩ := List.mem_map.1 hc
      obtain ⟨e, he⟩ := hw o' ho' c' hc'
      rw [order_spoken he] at hp
      obtain ⟨q, hq, rfl⟩ := List.mem_map.1 hp
      exact h.points o' ho' c' hc' q hq

/-! ## Files -/

/-- The lib of what was read can be said. -/
theorem read_sayable {mid : IOF → IOF → IOF} {lio : LeafIO L} (hl : LeafLaws lio) {lay lay' : XmlText.Layout} (hy : Lays lay) {ped : Pedantry}
    {t : Str} {g : Glif PD (Dict L)} (h : readText mid (io lio lay) (XmlText.io lay') ped t = .ok g) : SayableLib (io lio lay) g := by
  rcases reopened_lib h with hn | ⟨d, hd, f1, f2⟩
  · exact ⟨fun d h => (nomatch hn.symm.trans h), fun e h => (nomatch hn.symm.trans h)⟩
  · refine ⟨fun d' h' e he => ?_, fun e h => (nomatch hd.symm.trans h)⟩
    rw [hd] at h'
    cases h'
    exact lib_sayable hl lay hy d f1 (fun c h => (f2 c h).1) e he

theorem read_of_spells {mid : IOF → IOF → IOF} {pio : PlistIO D} {lay' : XmlText.Layout} {ped : Pedantry} {t : Str} {g : Glif PD D} {root : Element}
    (hs : SpellsDoc root t) (h : readText mid pio (XmlText.io lay') ped t = .ok g) : readGlif mid pio ped root = .ok g := by
  unfold readText at h
  rw [show (XmlText.io lay').parse t = some root from (C140_exact root t).2 hs] at h
  exact h

theorem file_unique {num : Str → Prop} {e : Element} {s : Str} (h : SpellsDoc e s) : FileOfFormat num s ↔ Conforms num e :=
  ⟨fun ⟨e', h', hc⟩ => by rw [C140_unambiguous h h']; exact hc, fun hc => ⟨e, h, hc⟩⟩

/-- **C143**, exactly: a file of the format that is opened and saved is still a file of the format if and only if all numbers
that come to be written are finite.  Then its numbers are not beyond the largest `f32` either. -/
theorem C143_exact (mid : IOF → IOF → IOF) {lio : LeafIO L} (hl : LeafLaws lio) (lay lay' : XmlText.Layout) (hy : Lays lay) (hy' : Lays lay')
    (ped : Pedantry) (t s : Str) (g : Glif PD (Dict L)) (ht : FileOfFormat SomeNumber t)
    (hr : readText mid (io lio lay) (XmlText.io lay') ped t = .ok g) (hw : writeText (io lio lay) (XmlText.io lay') g = .ok s) :
    (FileOfFormat SomeNumber s ↔ FiniteWritten g) ∧ (FileOfFormat Representable s ↔ FiniteWritten g) := by
  obtain ⟨root, hs, hc⟩ := ht
  have hrg := read_of_spells hs hr
  unfold writeText at hw
  obtain ⟨e, he, hw⟩ := bind_eq_ok.1 hw
  cases hw
  have htell : Tellable root.node := by
    obtain ⟨_, _, _, _, hsp, _, _⟩ := hs
    exact spells_tellable hsp
  obtain ⟨e', eh, h1, h2, -, h3⟩ := spoken_document (io lio lay) lay' hy' g (told_chars mid _ ped htell hrg) (read_sayable hl hy hr) e he
  have hsp : SpellsDoc e' (XmlText.print lay' e) := (C140_exact _ _).1 h1
  obtain ⟨hf, hwd⟩ := read_formed mid _ _ ped root e g hc hrg he
  have hcon : ∀ o, g.outline = some o → ∀ c ∈ o, ∃ e, contourXml c = .ok e := by
    intro o ho c hc
    obtain ⟨els, -, hfa, -⟩ := written_setup _ g e he
    rw [ho] at hfa
    obtain ⟨x, -, hx⟩ := forall₂_mem_left hfa hc
    exact ⟨x, hx⟩
  obtain ⟨x1, x2⟩ := C88_exact (io lio lay) (spoken g) hwd eh h2
  have hff := spoken_formed hcon hf
  constructor
  · rw [file_unique hsp, note_conforms h3, x1, spoken_finite hcon]
    exact and_iff_right hff
  · rw [file_unique hsp, note_conforms h3, x2, spoken_finite hcon]
    exact and_iff_right hff

/-- **C143.** A file of the format, with no number beyond the largest `f32`, that is opened and saved is still such a file,
whoever wrote it and however it is spelled.  If it has a quadratic contour, this takes midpoints of finite numbers
to be finite. -/
theorem C143_partial (mid : IOF → IOF → IOF) {lio : LeafIO L} (hl : LeafLaws lio) (lay lay' : XmlText.Layout) (hy : Lays lay) (hy' : Lays lay')
    (ped : Pedantry) (t s : Str) (g : Glif PD (Dict L)) (ht : FileOfFormat Representable t)
    (hr : readText mid (io lio lay) (XmlText.io lay') ped t = .ok g) (hw : writeText (io lio lay) (XmlText.io lay') g = .ok s)
    (hmid : (∃ root, SpellsDoc root t ∧ ∃ c ∈ contoursOf root, StartsQuadratic c) →
      ∀ a b, IsFiniteIof a → IsFiniteIof b → IsFiniteIof (mid a b)) : FileOfFormat Representable s := by
  obtain ⟨root, hs, hc⟩ := ht
  refine (C143_exact mid hl lay lay' hy hy' ped t s g ⟨root, hs, conforms_mono (fun _ => representable_some) hc⟩ hr hw).2.2 ?_
  have hfit := read_fits mid (io lio lay) ped root g (read_of_spells hs hr) hc fun ⟨c, hc, e, he, hq⟩ => hmid ⟨root, hs, c, hc, by
    obtain ⟨ps, hps⟩ := List.head?_eq_some_iff.1 he
    exact ⟨e, ps, hps, hq⟩⟩
  unfold writeText at hw
  obtain ⟨e, he, -⟩ := bind_eq_ok.1 hw
  exact (fits_formed hfit he).2

/-- **C143.** A file of the format with lines and cubic curves and no number beyond the largest `f32` can be opened and saved
for ever, all files that come of it are of the format, and from the second on they say the same. -/
theorem C143_ever (mid : IOF → IOF → IOF) {lio : LeafIO L} (hl : LeafLaws lio) (lay lay' : XmlText.Layout) (hy : Lays lay) (hy' : Lays lay')
    (ped : Pedantry) (t : Str) (g : Glif PD (Dict L)) (ht : FileOfFormat Representable t)
    (hr : readText mid (io lio lay) (XmlText.io lay') ped t = .ok g)
    (hq : ∀ root, SpellsDoc root t → ∀ c ∈ contoursOf root, ¬ StartsQuadratic c) :
    ∃ gs : Nat → Glif PD (Dict L), gs 0 = g ∧ ∀ n, Resaved (gs (n + 1)) (gs (n + 2)) ∧ ∃ s, writeText (io lio lay) (XmlText.io lay') (gs n) = .ok s ∧
      readText mid (io lio lay) (XmlText.io lay') {} s = .ok (gs (n + 1)) ∧ FileOfFormat Representable s := by
  obtain ⟨root, hs, hc⟩ := ht
  obtain ⟨gs, h0, hgs⟩ := C142_settles mid hl lay lay' hy hy' ped t g hr ((read_cubic_iff (read_of_spells hs hr)).2 (hq root hs))
  have step : ∀ n ped t s, FileOfFormat Representable t → readText mid (io lio lay) (XmlText.io lay') ped t = .ok (gs n) →
      writeText (io lio lay) (XmlText.io lay') (gs n) = .ok s → FileOfFormat Representable s := by
    intro n ped t s ht hr hw
    refine C143_partial mid hl lay lay' hy hy' ped t s (gs n) ht hr hw fun ⟨root, hs, c, hc, hsq⟩ => ?_
    exact absurd hsq (((C142_ever mid hl lay lay' hy hy' ped t (gs n) hr root hs).2.1 ⟨_, _, (hgs n).1, (hgs (n + 1)).1⟩) c hc)
  have all : ∀ n, ∃ s, writeText (io lio lay) (XmlText.io lay') (gs n) = .ok s ∧
      readText mid (io lio lay) (XmlText.io lay') {} s = .ok (gs (n + 1)) ∧ FileOfFormat Representable s := by
    intro n
    induction n with
    | zero =>
      obtain ⟨s, hw, hr'⟩ := (hgs 0).1
      exact ⟨s, hw, hr', step 0 ped t s ⟨root, hs, hc⟩ (by rw [h0]; exact hr) hw⟩
    | succ n ih =>
      obtain ⟨s, -, hrs, hfs⟩ := ih
      obtain ⟨s', hw, hr'⟩ := (hgs (n + 1)).1
      exact ⟨s', hw, hr', step (n + 1) {} s s' hfs hrs hw⟩
  exact ⟨gs, h0, fun n => ⟨(hgs n).2.2, all n⟩⟩

theorem attrs_plain (as : List (String × Str)) (h1 : (as.map (·.1)).Nodup) (h2 : ∀ a ∈ as, XmlName a.1)
    (h3 : ∀ a ∈ as, ∀ c ∈ a.2, c.toNat < 128 ∧ 32 ≤ c.toNat) : XmlAttrs as :=
  ⟨h1, fun a ha => ⟨h2 a ha, fun c hc => by
    have := h3 a ha c hc
    refine ⟨.inr (.inr (.inr ⟨this.2, by omega, by omega⟩)), ?_⟩
    rintro rfl
    exact absurd this.2 (by decide)⟩⟩

/-- C143 as stated is false: a number of 40 digits is saved as `inf`. -/
theorem C143_false (mid : IOF → IOF → IOF) {lio : LeafIO L} (hl : LeafLaws lio) (lay lay' : XmlText.Layout) (hy : Lays lay) (hy' : Lays lay') :
    ∃ t s, ∃ g : Glif PD (Dict L), FileOfFormat SomeNumber t ∧ readText mid (io lio lay) (XmlText.io lay') {} t = .ok g ∧
      writeText (io lio lay) (XmlText.io lay') g = .ok s ∧ ¬ FileOfFormat SomeNumber s := by
  obtain ⟨hc, g, hg, ⟨l, hl', hx⟩, out, ho⟩ := far_read (PD := PD) mid (io lio lay)
  have hsay : Sayable Sample.far.node := by
    refine .elem _ _ _ (by decide) (attrs_plain _ (by decide) (by decide) (by decide)) (fun c hc => ?_) (apart_nodes _ fun c hc => ?_)
    · rw [List.mem_singleton.1 hc]
      exact .elem _ _ _ (by decide) (attrs_plain _ (by decide) (by decide) (by decide)) (by simp [Sample.guideline]) (fun i s t h => by simp [Sample.guideline] at h)
    · rw [List.mem_singleton.1 hc]; exact fun s h => (nomatch h)
  have hsp := C140_printed lay' hy' Sample.far hsay
  have hr : readText mid (io lio lay) (XmlText.io lay') {} (XmlText.print lay' Sample.far) = .ok g := by
    unfold readText
    rw [show (XmlText.io lay').parse (XmlText.print lay' Sample.far) = some Sample.far from (C140_exact _ _).2 hsp]
    exact hg
  have hw : writeText (io lio lay) (XmlText.io lay') g = .ok (XmlText.print lay' out) := by
    unfold writeText; rw [ho]; rfl
  refine ⟨_, _, g, ⟨_, hsp, hc⟩, hr, hw, fun hbad => ?_⟩
  obtain ⟨neg, k, hki, e, hk⟩ := (((C143_exact mid hl lay lay' hy hy' {} _ _ g ⟨_, hsp, hc⟩ hr hw).1.1 hbad).guidelines l hl').1
  rw [hx] at e
  cases e
  exact hk rfl

/-- A file of the format with one curve, that is read and written. -/
example (mid : IOF → IOF → IOF) (lio : LeafIO L) (lay lay' : XmlText.Layout) (hy' : Lays lay') :
    ∃ t s, ∃ g : Glif PD (Dict L), FileOfFormat Representable t ∧ FileOfFormat SomeNumber t ∧
      readText mid (io lio lay) (XmlText.io lay') {} t = .ok g ∧ writeText (io lio lay) (XmlText.io lay') g = .ok s ∧
      ∀ root, SpellsDoc root t → contoursOf root ≠ [] ∧ ∀ c ∈ contoursOf root, ¬ StartsQuadratic c := by
  obtain ⟨out, g, hc, hg, ho, hne, nq⟩ := loop_read (PD := PD) mid (io lio lay)
  have hsay : Sayable Sample.loop.node := by
    have one : ∀ n as (cs : List Node), XmlName n → (as.map (·.1)).Nodup → (∀ a ∈ as, XmlName a.1) →
        (∀ a ∈ as, ∀ c ∈ a.2, c.toNat < 128 ∧ 32 ≤ c.toNat) → (∀ c ∈ cs, Sayable c ∧ ∀ s, c ≠ .text s) → Sayable (.elem n as cs) :=
      fun n as cs h1 h2 h3 h4 h5 => .elem _ _ _ h1 (attrs_plain _ h2 h3 h4) (fun c hc => (h5 c hc).1) (apart_nodes _ fun c hc => (h5 c hc).2)
    refine one _ _ _ (by decide) (by decide) (by decide) (by decide) fun c hc => ?_
    rw [List.mem_singleton.1 hc]
    refine ⟨one _ _ _ (by decide) (by decide) (by decide) (by decide) fun c hc => ?_, fun s h => (nomatch h)⟩
    rw [List.mem_singleton.1 hc]
    refine ⟨one _ _ _ (by decide) (by decide) (by decide) (by decide) fun c hc => ?_, fun s h => (nomatch h)⟩
    simp only [List.mem_cons, List.not_mem_nil, or_false] at hc
    rcases hc with rfl | rfl | rfl <;>
      exact ⟨one _ _ _ (by decide) (by decide) (by decide) (by decide) fun c hc => (nomatch hc), fun s h => (nomatch h)⟩
  have hsp := C140_printed lay' hy' Sample.loop hsay
  refine ⟨_, XmlText.print lay' out, g, ⟨_, hsp, hc⟩, ⟨_, hsp, conforms_mono (fun _ => representable_some) hc⟩, ?_, ?_, fun root hr => ?_⟩
  · unfold readText
    rw [show (XmlText.io lay').parse (XmlText.print lay' Sample.loop) = some Sample.loop from (C140_exact _ _).2 hsp]
    exact hg
  · unfold writeText; rw [ho]; rfl
  · cases C140_unambiguous hr hsp
    refine ⟨hne, fun c hc ⟨e, ps, he, hq⟩ => nq ⟨c, hc, e, by rw [he]; rfl, hq⟩⟩

end GP
