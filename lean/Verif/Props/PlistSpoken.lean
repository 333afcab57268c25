import Verif.Spec.PlistSpoken
import Verif.Props.Spoken
import Verif.Props.Plist
/-!
# C127: what comes back of any lib dictionary
-/
open Fl Fl.Text
namespace GP
open Spec Plist
variable {PD L : Type}

theorem unixVals_eq (l : List (PVal L)) : unixVals l = l.map unixVal := by
  induction l with
  | nil => simp [unixVals]
  | cons v l ih => simp [unixVals, ih]

theorem unixDict_eq (l : Dict L) : unixDict l = l.map fun e => (unix e.1, unixVal e.2) := by
  induction l with
  | nil => simp [unixDict]
  | cons e l ih => obtain ⟨k, v⟩ := e; simp [unixDict, ih]

/-- With the ends of lines changed a value has only plain text. -/
theorem unix_plain {v : PVal L} (h : Holdable v) (hx : ∀ c, Utters c v → XmlChar c) : PlainVal (unixVal v) := by
  induction h with
  | str s =>
    simp only [unixVal]
    rw [unix_lines]
    exact .str _ (plain_lines fun c hc => hx c (.str s hc))
  | int i h h' => simp only [unixVal]; exact .int i h h'
  | real x => simp only [unixVal]; exact .real x
  | bool b => simp only [unixVal]; exact .bool b
  | leaf x => simp only [unixVal]; exact .leaf x
  | array l h ih =>
    simp only [unixVal, unixVals_eq]
    refine .array _ fun w hw => ?_
    obtain ⟨v, hv, rfl⟩ := List.mem_map.1 hw
    exact ih v hv fun c hc => hx c (.array l v hv hc)
  | dict l hn h ih =>
    simp only [unixVal, unixDict_eq]
    refine .dict _ (fun w hw => ?_) fun w hw => ?_ <;> obtain ⟨e, he, rfl⟩ := List.mem_map.1 hw
    · show PlainText (unix e.1)
      rw [unix_lines]
      exact plain_lines fun c hc => hx c (.key l e he hc)
    · exact ih e he fun c hc => hx c (.dict l e he hc)

theorem text_spoken (n : String) (s : Str) (hn : XmlName n) (hs : ∀ c ∈ s, XmlChar c) : SpokenNode (textElem n s) (heardElem n (unix s)) := by
  unfold textElem heardElem
  rw [unix_lines]
  by_cases h : Blank s
  · rw [if_pos ((blank_lines s).2 h)]
    exact .blank n s hn hs h
  · rw [if_neg fun hb => h ((blank_lines s).1 hb)]
    exact .text n s hn hs h

theorem plain_spoken (n : String) (s : Str) (hn : XmlName n) (hs : PlainText s) : SpokenNode (textElem n s) (heardElem n s) := by
  have := text_spoken n s hn fun c hc => (hs c hc).1
  rwa [unix_lines, XmlText.lines_eq s fun hc => (hs _ hc).2 rfl] at this

theorem pairs_spoken (n : String) (hn : XmlName n) (ps : List (Node × Node)) (h : ∀ p ∈ ps, SpokenNode p.1 p.2) :
    SpokenNode (.elem n [] (ps.map (·.1))) (.elem n [] (ps.map (·.2))) :=
  .elem n [] ps hn ⟨by simp, by simp⟩ h

/-- The printed tree is heard as the tree of the value with the ends of lines changed. -/
theorem tree_spoken {lio : LeafIO L} (hl : LeafLaws lio) {v : PVal L} (h : Holdable v) (hx : ∀ c, Utters c v → XmlChar c) :
    SpokenNode (tree lio v) (heardTree lio (unixVal v)) := by
  induction h with
  | str s => simp only [tree, heardTree, unixVal]; exact text_spoken _ _ (by decide) fun c hc => hx c (.str s hc)
  | int i h h' => simp only [tree, heardTree, unixVal]; exact plain_spoken _ _ (by decide) (inked_plain (inked_int i))
  | real x => simp only [tree, heardTree, unixVal]; exact plain_spoken _ _ (by decide) (inked_plain (inked_float x))
  | bool b => cases b <;> simp only [tree, heardTree, unixVal] <;> exact pairs_spoken _ (by decide) [] (by simp)
  | leaf x => simp only [tree, heardTree, unixVal]; exact plain_spoken _ _ (name_of_tag hl x) (hl.plain x)
  | array l h ih =>
    simp only [tree, heardTree, unixVal, unixVals_eq]
    rw [(trees_pairs lio l).1, (trees_pairs lio _).2, List.map_map, List.map_map, List.map_map]
    have := pairs_spoken "array" (by decide) (l.map fun v => (tree lio v, heardTree lio (unixVal v))) (by
      intro p hp
      obtain ⟨v, hv, rfl⟩ := List.mem_map.1 hp
      exact ih v hv fun c hc => hx c (.array l v hv hc))
    rw [List.map_map, List.map_map] at this
    exact this
  | dict l hn h ih =>
    simp only [tree, heardTree, unixVal, unixDict_eq]
    have e1 : entryTrees lio l = (l.flatMap fun e => [(textElem "key" e.1, heardElem "key" (unix e.1)), (tree lio e.2, heardTree lio (unixVal e.2))]).map (·.1) := by
      rw [(entries_pairs lio l).1]
      simp only [entryPairs, List.map_flatMap, List.map_cons, List.map_nil]
    have e2 : heardEntryTrees lio (l.map fun e => (unix e.1, unixVal e.2)) =
        (l.flatMap fun e => [(textElem "key" e.1, heardElem "key" (unix e.1)), (tree lio e.2, heardTree lio (unixVal e.2))]).map (·.2) := by
      rw [(entries_pairs lio _).2]
      simp only [entryPairs, List.map_flatMap, List.flatMap_map, List.map_cons, List.map_nil]
    rw [e1, e2]
    refine pairs_spoken "dict" (by decide) _ ?_
    intro p hp
    obtain ⟨e, he, hp⟩ := List.mem_flatMap.1 hp
    rcases List.mem_cons.1 hp with rfl | hp
    · exact text_spoken _ _ (by decide) fun c hc => hx c (.key l e he hc)
    · rw [List.mem_singleton.1 hp]
      exact ih e he fun c hc => hx c (.dict l e he hc)

/-- What the printed list is heard as. -/
theorem toXml_spoken {lio : LeafIO L} (hl : LeafLaws lio) (lay : XmlText.Layout) (hy : Lays lay) (d : Dict L) (h : Holdable (.dict d))
    (hx : ∀ c, Utters c (.dict d) → XmlChar c) :
    (io lio lay).toXml d = some { name := "plist", attrs := [("version", "1.0".toList)], children := [heardTree lio (.dict (unixDict d))] } := by
  show XmlText.parse (XmlText.print lay (document lio d)) = _
  apply parse_spoken lay hy
  have ht := tree_spoken hl h hx
  simp only [unixVal] at ht
  exact SpokenNode.elem "plist" [("version", "1.0".toList)] [(tree lio (.dict d), heardTree lio (.dict (unixDict d)))] (by decide)
    ⟨by simp, fun a ha => by rw [List.mem_singleton.1 ha]; exact ⟨by decide, by decide +kernel⟩⟩ (fun p hp => by rw [List.mem_singleton.1 hp]; exact ht)

/-- **C127.** A dictionary with any characters of XML in its strings and keys is saved as the one in which all ends of
lines are line feeds, and comes back as that one does. -/
theorem C127_returns {lio : LeafIO L} (hl : LeafLaws lio) (lay : XmlText.Layout) (hy : Lays lay) (d : Dict L) (h : Holdable (.dict d))
    (hx : ∀ c, Utters c (.dict d) → XmlChar c) :
    (io lio lay).toXml d = (io lio lay).toXml (unixDict d) ∧ (∀ d', ComesBack (io lio lay) d d' ↔ ComesBack (io lio lay) (unixDict d) d') ∧
      ∃ d', ComesBack (io lio lay) d d' ∧ ∀ d'', ComesBack (io lio lay) d d'' → d'' = d' := by
  have hp := unix_plain h hx
  simp only [unixVal] at hp
  have he : (io lio lay).toXml d = (io lio lay).toXml (unixDict d) := by
    rw [toXml_spoken hl lay hy d h hx, toXml_eq hl lay hy _ hp]
  refine ⟨he, fun d' => by unfold ComesBack; rw [he], gather (hearEntries (unixDict d)), ?_, ?_⟩
  · exact ⟨_, toXml_spoken hl lay hy d h hx, fromXml_eq hl lay _ hp⟩
  · rintro d'' ⟨e, he, hf⟩
    rw [toXml_spoken hl lay hy d h hx] at he
    cases he
    have := (fromXml_eq hl lay _ hp).symm.trans hf
    exact (Option.some.inj (Option.some.inj this)).symm

theorem plain_utters {v : PVal L} (h : PlainVal v) {c : Char} (hc : Utters c v) : XmlChar c ∧ c ≠ '\r' := by
  induction h with
  | str s h => cases hc with | str _ hc => exact h c hc
  | array l h ih => cases hc with | array _ v hv hc => exact ih v hv hc
  | dict l hk h ih =>
    cases hc with
    | key _ e he hc => exact hk e he c hc
    | dict _ e he hc => exact ih e he hc
  | _ => cases hc

theorem plain_hear {v : PVal L} (h : PlainVal v) : PlainVal (hear v) := by
  induction h with
  | str s h => simp only [hear]; exact .str _ (heardText_plain h)
  | int i h h' => simp only [hear]; exact .int i h h'
  | real x => simp only [hear]; exact .real x
  | bool b => simp only [hear]; exact .bool b
  | leaf x => simp only [hear]; exact .leaf x
  | array l h ih =>
    simp only [hear, hears_eq]
    refine .array _ fun w hw => ?_
    obtain ⟨v, hv, rfl⟩ := List.mem_map.1 hw
    exact ih v hv
  | dict l hk h ih =>
    simp only [hear]
    have key : ∀ e ∈ gather (hearEntries l), ∃ w ∈ l, (heardText w.1, hear w.2) = e := by
      intro e he
      have := gather_mem he
      rw [hearEntries_eq] at this
      obtain ⟨w, hw, rfl⟩ := List.mem_map.1 this
      exact ⟨w, hw, rfl⟩
    refine .dict _ (fun e he => ?_) fun e he => ?_ <;> obtain ⟨w, hw, rfl⟩ := key e he
    · exact heardText_plain (hk w hw)
    · exact ih w hw

theorem holdable_printable {v : PVal L} (h : Holdable v) (hx : ∀ c, Utters c v → XmlChar c ∧ c ≠ '\r') : Printable v := by
  induction h with
  | str s => exact .str s fun c hc => hx c (.str s hc)
  | int i h h' => exact .int i h h'
  | real x => exact .real x
  | bool b => exact .bool b
  | leaf x => exact .leaf x
  | array l h ih => exact .array l fun v hv => ih v hv fun c hc => hx c (.array l v hv hc)
  | dict l hn h ih =>
    exact .dict l hn (fun e he c hc => hx c (.key l e he hc)) fun e he => ih e he fun c hc => hx c (.dict l e he hc)

theorem toXml_none (lio : LeafIO L) (lay : XmlText.Layout) (d : Dict L) {c : Char} (hc : Utters c (.dict d)) (hx : ¬ XmlChar c) :
    (io lio lay).toXml d = none :=
  XmlText.parse_print_not hx lay (document lio d) (.child _ _ _ (tree lio (.dict d)) (List.mem_singleton.2 rfl) (tree_holds lio hc))

/-- **C127.** Of all dictionaries there can be, exactly those come back as themselves that have, in strings and keys, only
characters of XML and no carriage returns, and no string and no key of white space and nothing else. -/
theorem C127_all {lio : LeafIO L} (hl : LeafLaws lio) (lay : XmlText.Layout) (hy : Lays lay) (d : Dict L) (h : Holdable (.dict d)) :
    ComesBack (io lio lay) d d ↔ Audible (.dict d) ∧ ∀ c, Utters c (.dict d) → XmlChar c ∧ c ≠ '\r' := by
  constructor
  · intro hb
    have hx : ∀ c, Utters c (.dict d) → XmlChar c := by
      intro c hc
      by_contra hn
      obtain ⟨e, he, -⟩ := hb
      rw [toXml_none lio lay d hc hn] at he
      cases he
    have hp := unix_plain h hx
    simp only [unixVal] at hp
    have hr : ∀ c, Utters c (.dict d) → XmlChar c ∧ c ≠ '\r' := by
      obtain ⟨e, he, hf⟩ := hb
      rw [toXml_spoken hl lay hy d h hx] at he
      cases he
      have hd := (fromXml_eq hl lay _ hp).symm.trans hf
      have hh := plain_hear hp
      simp only [hear] at hh
      rw [Option.some.inj (Option.some.inj hd)] at hh
      exact fun c hc => plain_utters hh hc
    exact ⟨(C127_exact hl lay hy d (holdable_printable h hr)).1 hb, hr⟩
  · rintro ⟨ha, hr⟩
    exact (C127_exact hl lay hy d (holdable_printable h hr)).2 ha

/-! ## Glyphs -/

/-- The library as it is for one dictionary. -/
def onePlist {D : Type} (pio : PlistIO D) (d : D) : PlistIO D := { toXml := fun _ => pio.toXml d, fromXml := pio.fromXml }

theorem hasChar_lib {D : Type} {c : Char} {g : Glif PD D} {lib : Lib D} (lib' : Lib D) (hc : HasChar c ({ g with lib := lib } : Glif PD D)) :
    HasChar c ({ g with lib := lib' } : Glif PD D) := by
  cases hc with
  | name h => exact .name h
  | note n hn h => exact .note n hn h
  | point o k p s ho hk hp hc hs h => exact .point o k p s ho hk hp hc hs h
  | anchor a s ha hs h => exact .anchor a s ha hs h
  | component k hk h => exact .component k hk h
  | image i hi h => exact .image i hi h
  | guideline l s hl hs h => exact .guideline l s hl hs h

theorem audible_lib {D : Type} {g : Glif PD D} {lib : Lib D} (lib' : Lib D) (h : AudibleGlyph ({ g with lib := lib } : Glif PD D)) :
    AudibleGlyph ({ g with lib := lib' } : Glif PD D) :=
  ⟨fun c hc => h.chars c (hasChar_lib lib hc), h.name, h.points, h.anchors, h.components, h.images, h.guidelines, h.note⟩

theorem lib_sayable {lio : LeafIO L} (hl : LeafLaws lio) (lay : XmlText.Layout) (hy : Lays lay) (d : Dict L) (h : Holdable (.dict d))
    (hx : ∀ c, Utters c (.dict d) → XmlChar c) (e : Element) (he : (io lio lay).toXml d = some e) :
    (∀ c ∈ e.children, Sayable c) ∧ Apart e.children := by
  have hp := unix_plain h hx
  simp only [unixVal] at hp
  rw [toXml_spoken hl lay hy d h hx] at he
  cases he
  exact ⟨fun c hc => by rw [List.mem_singleton.1 hc]; exact (heard_tree hl hp).2,
    apart_nodes _ fun c hc => by rw [List.mem_singleton.1 hc]; exact (tree_not_text lio _).2⟩

/-- A lib is read as the dictionary that comes back for it. -/
theorem lib_comes (mid : IOF → IOF → IOF) {lio : LeafIO L} (hl : LeafLaws lio) (lay lay' : XmlText.Layout) (hy : Lays lay)
    (hy' : Lays lay') (g : Glif PD (Dict L)) (d d' : Dict L) (hs : Saveable (io lio lay) { g with lib := .none })
    (hg : ∀ c, HasChar c g → XmlChar c) (h : Holdable (.dict d)) (hx : ∀ c, Utters c (.dict d) → XmlChar c)
    (hd : ComesBack (io lio lay) d d') :
    ∃ s g', writeText (io lio lay) (XmlText.io lay') { g with lib := .plist d } = .ok s ∧
      readText mid (io lio lay) (XmlText.io lay') {} s = .ok g' ∧ Resaved (spoken { g with lib := .plist d' }) g' := by
  have hs1 : Saveable (onePlist (io lio lay) d) { g with lib := .plist d' } := ⟨hs.contours, hs.width, hs.classes, hd⟩
  have hc1 : ∀ c, HasChar c ({ g with lib := .plist d' } : Glif PD (Dict L)) → XmlChar c := fun c hc => hg c (hasChar_lib g.lib hc)
  have hl1 : SayableLib (onePlist (io lio lay) d) ({ g with lib := .plist d' } : Glif PD (Dict L)) :=
    ⟨fun _ _ e he => lib_sayable hl lay hy d h hx e he, fun e h => (nomatch h)⟩
  obtain ⟨s, g', hw, hr, hres⟩ := C97_resaved mid (onePlist (io lio lay) d) lay' hy' _ hs1 hc1 hl1
  exact ⟨s, g', hw, hr, hres⟩

/-- **C127.** Exactly these glyphs come back with their lib, from the text: those that C97 says come back without one, whose
dictionary has, in strings and keys, only characters of XML, no carriage returns, and no string and no key of white
space and nothing else. -/
theorem C127_glyphs (mid : IOF → IOF → IOF) {lio : LeafIO L} (hl : LeafLaws lio) (lay lay' : XmlText.Layout) (hy : Lays lay)
    (hy' : Lays lay') (g : Glif PD (Dict L)) (d : Dict L) (hs : Saveable (io lio lay) { g with lib := .none })
    (h : Holdable (.dict d)) :
    (∃ s g', writeText (io lio lay) (XmlText.io lay') { g with lib := .plist d } = .ok s ∧
      readText mid (io lio lay) (XmlText.io lay') {} s = .ok g' ∧ Resaved { g with lib := .plist d } g') ↔
    AudibleGlyph g ∧ Audible (.dict d) ∧ ∀ c, Utters c (.dict d) → XmlChar c ∧ c ≠ '\r' := by
  constructor
  · rintro ⟨s, g', hw, hr, hres⟩
    have hg : ∀ c, HasChar c g → XmlChar c := by
      intro c hc
      by_contra hn
      rw [C97_control mid (io lio lay) lay' {} _ c (hasChar_lib (g := g) (lib := g.lib) (.plist d) hc) hn s hw] at hr
      cases hr
    have hx : ∀ c, Utters c (.dict d) → XmlChar c := by
      intro c hc
      by_contra hn
      rw [(C127_control mid lio lay lay' g d c hc hn).1] at hw
      obtain ⟨s', g'', hw', hr', hres'⟩ := C97_resaved mid (io lio lay) lay' hy' _ hs
        (fun c hc => hg c (hasChar_lib (g := g) g.lib hc)) ⟨fun d h => (nomatch h), fun e h => (nomatch h)⟩
      rw [hw] at hw'
      cases hw'
      rw [hr] at hr'
      cases hr'
      have := hres.lib.symm.trans hres'.lib
      cases this
    obtain ⟨-, -, d', hd', -⟩ := C127_returns hl lay hy d h hx
    obtain ⟨s', g'', hw', hr', hres'⟩ := lib_comes mid hl lay lay' hy hy' g d d' hs hg h hx hd'
    rw [hw] at hw'
    cases hw'
    rw [hr] at hr'
    cases hr'
    have hdd : d = d' := Lib.plist.inj (hres.lib.symm.trans hres'.lib)
    subst hdd
    refine ⟨?_, (C127_all hl lay hy d h).1 hd'⟩
    have := (C97_exact mid (io lio lay) lay' hy' ({ g with lib := .plist d } : Glif PD (Dict L)) ⟨hs.contours, hs.width, hs.classes, hd'⟩
      ⟨fun d' hd' e he => by cases hd'; exact lib_sayable hl lay hy d h hx e he, fun e h => (nomatch h)⟩).1 ⟨s, g', hw, hr, hres⟩
    exact audible_lib (g := g) g.lib this
  · rintro ⟨hg, hd⟩
    have hb := (C127_all hl lay hy d h).2 hd
    exact (C97_exact mid (io lio lay) lay' hy' ({ g with lib := .plist d } : Glif PD (Dict L)) ⟨hs.contours, hs.width, hs.classes, hb⟩
      ⟨fun d' hd' e he => by cases hd'; exact lib_sayable hl lay hy d h (fun c hc => (hd.2 c hc).1) e he, fun e h => (nomatch h)⟩).2
      (audible_lib (g := g) (lib := g.lib) (.plist d) hg)

/-- A carriage return in a string of a lib. -/
def Sample.returned : Dict L := [("k".toList, .str "a\r\nb".toList)]

theorem returned_holdable : Holdable (.dict (Sample.returned : Dict L)) :=
  .dict _ (by simp [Sample.returned]) fun e he => by rw [List.mem_singleton.1 he]; exact .str _

/-- It is saved with a line feed, and so does not come back as it was. -/
example : (io Sample.dates64 .indented).toXml Sample.returned = (io Sample.dates64 .indented).toXml [("k".toList, .str "a\nb".toList)] ∧
    ¬ ComesBack (io Sample.dates64 .indented) Sample.returned Sample.returned := by
  have hu : ∀ c, Utters c (.dict (Sample.returned : Dict (Fin (2 ^ 64)))) → XmlChar c := by
    intro c hc
    cases hc with
    | key _ e he hc =>
      rw [List.mem_singleton.1 he] at hc
      exact (show ∀ c ∈ "k".toList, XmlChar c by decide +kernel) c hc
    | dict _ e he hc =>
      rw [List.mem_singleton.1 he] at hc
      cases hc with
      | str _ hc => exact (show ∀ c ∈ "a\r\nb".toList, XmlChar c by decide +kernel) c hc
  constructor
  · rw [(C127_returns dates_laws .indented lays_indented _ returned_holdable hu).1]
    congr 1
  · rw [C127_all dates_laws .indented lays_indented _ returned_holdable]
    rintro ⟨-, h⟩
    exact (h '\r' (.dict _ _ (List.mem_singleton.2 rfl) (.str _ (by decide +kernel)))).2 rfl

end GP
