import Verif.Lemmas.Plist
import Verif.Lemmas.XmlControl
/-!
# C127: lib dictionaries
-/
open Fl Fl.Text
namespace GP
open Spec Plist
variable {PD L : Type}

theorem comesBack_iff {lio : LeafIO L} (hl : LeafLaws lio) (lay : XmlText.Layout) (hy : Lays lay) (d d' : Dict L) (h : Printable (.dict d)) :
    ComesBack (io lio lay) d d' ↔ d' = gather (hearEntries d) := by
  constructor
  · rintro ⟨e, he, hf⟩
    rw [toXml_eq hl lay hy d (printable_plain h)] at he
    cases he
    rw [fromXml_eq hl lay d (printable_plain h)] at hf
    exact (Option.some.inj (Option.some.inj hf)).symm
  · rintro rfl
    exact ⟨_, toXml_eq hl lay hy d (printable_plain h), fromXml_eq hl lay d (printable_plain h)⟩

/-- **C127.** A dictionary that a file can hold comes back with every value in its place, whatever its
strings and however deep: only strings and keys of white space come back empty. -/
theorem C127_lib {lio : LeafIO L} (hl : LeafLaws lio) (lay : XmlText.Layout) (hy : Lays lay) (d : Dict L) (h : Printable (.dict d))
    (hd : Distinct (.dict d)) : ComesBack (io lio lay) d (heardDict d) := by
  rw [comesBack_iff hl lay hy d _ h]
  have := hear_distinct hd
  simp only [hear, heardVal, PVal.dict.injEq] at this
  exact this.symm

/-- **C127.** A dictionary that a file can hold comes back as itself exactly if no string and no key in
it is white space and nothing else. -/
theorem C127_exact {lio : LeafIO L} (hl : LeafLaws lio) (lay : XmlText.Layout) (hy : Lays lay) (d : Dict L) (h : Printable (.dict d)) :
    ComesBack (io lio lay) d d ↔ Audible (.dict d) := by
  rw [comesBack_iff hl lay hy d _ h]
  constructor
  · intro he
    exact audible_hear h (by simp only [hear]; rw [← he])
  · intro ha
    have := hear_audible h ha
    simp only [hear, PVal.dict.injEq] at this
    exact this.symm

/-- **C127.** Every dictionary that a file can hold comes back as some dictionary, and that one comes back
as itself from then on: nothing is lost by a second save. -/
theorem C127_twice {lio : LeafIO L} (hl : LeafLaws lio) (lay : XmlText.Layout) (hy : Lays lay) (d : Dict L) (h : Printable (.dict d)) :
    ∃ d', ComesBack (io lio lay) d d' ∧ (∀ d'', ComesBack (io lio lay) d d'' → d'' = d') ∧ ComesBack (io lio lay) d' d' ∧
      Printable (.dict d') ∧ Audible (.dict d') := by
  refine ⟨gather (hearEntries d), (comesBack_iff hl lay hy d _ h).2 rfl, fun d'' hd => (comesBack_iff hl lay hy d _ h).1 hd, ?_⟩
  have hs := hear_settled h
  simp only [hear] at hs
  exact ⟨(C127_exact hl lay hy _ hs.1).2 hs.2, hs.1, hs.2⟩

/-- What is asked of the rest of the glyph is asked of it without its lib. -/
theorem with_lib {D : Type} {pio : PlistIO D} {g : Glif PD D} {d : D} (hs : Saveable pio { g with lib := .none })
    (ht : SayableTexts pio { g with lib := .none }) (hd : LibSurvives pio (.plist d))
    (hp : ∀ e, pio.toXml d = some e → (∀ c ∈ e.children, Sayable c) ∧ Apart e.children) :
    Saveable pio { g with lib := .plist d } ∧ SayableTexts pio { g with lib := .plist d } :=
  ⟨⟨hs.contours, hs.width, hs.classes, hd⟩,
    ⟨ht.name, ht.anchors, ht.points, ht.components, ht.images, ht.guidelines, ht.note,
      fun d' h e he => by cases h; exact hp e he, fun e h => (nomatch h)⟩⟩

/-- **C127, the part that holds.** A glyph that can be saved, with a lib dictionary that a file can hold
and in which no string and no key is white space and nothing else, is read from its text with the same
lib, and with everything else as C01 says. -/
theorem C127_partial (mid : IOF → IOF → IOF) {lio : LeafIO L} (hl : LeafLaws lio) (lay lay' : XmlText.Layout) (hy : Lays lay)
    (hy' : Lays lay') (g : Glif PD (Dict L)) (d : Dict L) (hs : Saveable (io lio lay) { g with lib := .none })
    (ht : SayableTexts (io lio lay) { g with lib := .none }) (hb : ∀ n, g.note = some n → ¬ Blank n) (h : Printable (.dict d))
    (ha : Audible (.dict d)) :
    ∃ s g', writeText (io lio lay) (XmlText.io lay') { g with lib := .plist d } = .ok s ∧
      readText mid (io lio lay) (XmlText.io lay') {} s = .ok g' ∧ g'.lib = .plist d ∧ Resaved { g with lib := .plist d } g' := by
  obtain ⟨h1, h2⟩ := with_lib hs ht ((C127_exact hl lay hy d h).2 ha) fun e he => by
    rw [toXml_eq hl lay hy d (printable_plain h)] at he
    cases he
    exact ⟨fun c hc => by rw [List.mem_singleton.1 hc]; exact (heard_tree hl (printable_plain h)).2,
      apart_nodes _ fun c hc => by rw [List.mem_singleton.1 hc]; exact (tree_not_text lio _).2⟩
  obtain ⟨s, g', hw, hr, hres⟩ := C97_partial mid (io lio lay) lay' hy' _ h1 h2 hb
  exact ⟨s, g', hw, hr, hres.lib, hres⟩

theorem heardElem_heard (n : String) (s : Str) : heardElem n (heardText s) = heardElem n s := by
  unfold heardElem heardText
  by_cases h : Blank s
  · rw [if_pos h, if_pos (by intro c hc; simp at hc), if_pos h]
  · rw [if_neg h]

mutual
theorem heardTree_heard (lio : LeafIO L) : ∀ v : PVal L, heardTree lio (heardVal v) = heardTree lio v
  | .str s => by simp only [heardVal, heardTree, heardElem_heard]
  | .int i => by simp only [heardVal]
  | .real x => by simp only [heardVal]
  | .bool b => by simp only [heardVal]
  | .leaf x => by simp only [heardVal]
  | .array l => by simp only [heardVal, heardTree, heardTrees_heard lio l]
  | .dict l => by simp only [heardVal, heardTree, heardEntryTrees_heard lio l]

theorem heardTrees_heard (lio : LeafIO L) : ∀ l : List (PVal L), heardTrees lio (heardVals l) = heardTrees lio l
  | [] => by simp only [heardVals]
  | v :: l => by simp only [heardVals, heardTrees, heardTree_heard lio v, heardTrees_heard lio l]

theorem heardEntryTrees_heard (lio : LeafIO L) : ∀ l : Dict L, heardEntryTrees lio (heardDict l) = heardEntryTrees lio l
  | [] => by simp only [heardDict]
  | (k, v) :: l => by
    simp only [heardDict, heardEntryTrees, heardElem_heard, heardTree_heard lio v, heardEntryTrees_heard lio l]
end

/-- **C127.** Whatever its strings, a lib dictionary in which no two keys are heard alike is written as
what is heard of it is written, and that is what is read. -/
theorem C127_glyph (mid : IOF → IOF → IOF) {lio : LeafIO L} (hl : LeafLaws lio) (lay lay' : XmlText.Layout) (hy : Lays lay)
    (hy' : Lays lay') (g : Glif PD (Dict L)) (d : Dict L) (hs : Saveable (io lio lay) { g with lib := .none })
    (ht : SayableTexts (io lio lay) { g with lib := .none }) (hb : ∀ n, g.note = some n → ¬ Blank n) (h : Printable (.dict d))
    (hd : Distinct (.dict d)) :
    ∃ s g', writeText (io lio lay) (XmlText.io lay') { g with lib := .plist d } = .ok s ∧
      writeText (io lio lay) (XmlText.io lay') { g with lib := .plist (heardDict d) } = .ok s ∧
      readText (PD := PD) mid (io lio lay) (XmlText.io lay') {} s = .ok g' ∧ g'.lib = .plist (heardDict d) := by
  have hh := hear_settled h
  rw [hear_distinct hd] at hh
  simp only [heardVal] at hh
  obtain ⟨s, g', hw, hr, hlib, -⟩ := C127_partial mid hl lay lay' hy hy' g _ hs ht hb hh.1 hh.2
  refine ⟨s, g', ?_, hw, hr, hlib⟩
  have ht : (io lio lay).toXml (heardDict d) = (io lio lay).toXml d := by
    rw [toXml_eq hl lay hy d (printable_plain h), toXml_eq hl lay hy _ (printable_plain hh.1)]
    have := heardTree_heard lio (.dict d)
    simp only [heardVal] at this
    rw [this]
  rw [← hw]
  unfold writeText glifXml libXml
  simp only [ht]

/-! ## Samples -/

/-- Dates as numbers of 64 bits, to show that the laws can be met. -/
def Sample.dates64 : LeafIO (Fin (2 ^ 64)) where
  tag _ := "date"
  print n := showInt n.val
  parse _ s := (readInt s).map fun i => Fin.ofNat (2 ^ 64) i.toNat

theorem dates_laws : LeafLaws Sample.dates64 where
  tag _ := Or.inl rfl
  plain n := inked_plain (inked_int n.val)
  parse n := by
    show (readInt (heardText (showInt n.val))).map _ = _
    rw [inked_heard (inked_int _), readInt_showInt _ (by omega) (by omega)]
    exact congrArg some (Fin.ext (Nat.mod_eq_of_lt n.isLt))

/-! ## What is lost -/

theorem tree_holds {c : Char} (lio : LeafIO L) {v : PVal L} (h : Utters c v) : XmlText.Holds c (tree lio v) := by
  induction h with
  | str s h => simp only [tree, textElem]; exact .child _ _ _ (.text s) (by simp) (.text s h)
  | array l v hv h ih =>
    simp only [tree]
    refine .child _ _ _ _ ?_ ih
    rw [(trees_pairs lio l).1, List.map_map]
    exact List.mem_map.2 ⟨v, hv, rfl⟩
  | key l e he h =>
    simp only [tree]
    refine .child _ _ _ (textElem "key" e.1) ?_ (.child _ _ _ (.text e.1) (by simp) (.text e.1 h))
    rw [(entries_pairs lio l).1]
    exact List.mem_map.2 ⟨(textElem "key" e.1, heardElem "key" e.1), List.mem_flatMap.2 ⟨e, he, by simp⟩, rfl⟩
  | dict l e he h ih =>
    simp only [tree]
    refine .child _ _ _ (tree lio e.2) ?_ ih
    rw [(entries_pairs lio l).1]
    exact List.mem_map.2 ⟨(_, heardTree lio e.2), List.mem_flatMap.2 ⟨e, he, by simp⟩, rfl⟩

/-- **C127.** A lib with a string or a key, at any depth, that has a character XML does not have is left
out whole, without complaint: the glyph is written as if it had no lib, and is read without one. -/
theorem C127_control (mid : IOF → IOF → IOF) (lio : LeafIO L) (lay lay' : XmlText.Layout) (g : Glif PD (Dict L)) (d : Dict L) (c : Char)
    (hc : Utters c (.dict d)) (hx : ¬ XmlChar c) :
    writeText (io lio lay) (XmlText.io lay') { g with lib := .plist d } =
      writeText (io lio lay) (XmlText.io lay') { g with lib := .none } ∧
    (Lays lay' → Saveable (io lio lay) { g with lib := .none } → SayableTexts (io lio lay) { g with lib := .none } →
      (∀ n, g.note = some n → ¬ Blank n) →
      ∃ s g', writeText (io lio lay) (XmlText.io lay') { g with lib := .plist d } = .ok s ∧
        readText (PD := PD) mid (io lio lay) (XmlText.io lay') {} s = .ok g' ∧ g'.lib = .none) := by
  have ht : (io lio lay).toXml d = none := XmlText.parse_print_not hx lay (document lio d)
    (.child _ _ _ (tree lio (.dict d)) (List.mem_singleton.2 rfl) (tree_holds lio hc))
  have hw : writeText (io lio lay) (XmlText.io lay') { g with lib := .plist d } =
      writeText (io lio lay) (XmlText.io lay') { g with lib := .none } := by
    unfold writeText glifXml libXml
    simp only [ht]
  refine ⟨hw, fun hl hs hy hb => ?_⟩
  obtain ⟨s, g', h1, h2, h3⟩ := C97_partial mid (io lio lay) lay' hl _ hs hy hb
  exact ⟨s, g', hw.trans h1, h2, h3.lib⟩

/-- A bell in a string of an array. -/
example : (io Sample.dates64 .indented).toXml [("k".toList, .array [.str [Char.ofNat 7]])] = none :=
  XmlText.parse_print_not (c := Char.ofNat 7) (by decide) .indented (document Sample.dates64 _)
    (.child _ _ _ _ (List.mem_singleton.2 rfl) (tree_holds Sample.dates64 (v := .dict [("k".toList, .array [.str [Char.ofNat 7]])])
      (.dict _ _ (List.mem_singleton.2 rfl) (.array _ _ (List.mem_singleton.2 rfl) (.str _ (List.mem_singleton.2 rfl))))))

/-- A lib with a string of one space. -/
def Sample.spaced : Dict L := [("k".toList, .str " ".toList)]

theorem spaced_printable : Printable (.dict (Sample.spaced : Dict L)) := by
  refine .dict _ (by simp [Sample.spaced]) (fun e he => ?_) fun e he => ?_ <;> rw [List.mem_singleton.1 he]
  · show PlainText "k".toList
    decide
  · exact .str _ (by decide)

theorem spaced_distinct : Distinct (.dict (Sample.spaced : Dict L)) := by
  refine .dict _ (by simp [Sample.spaced]) (fun e he => ?_)
  rw [List.mem_singleton.1 he]
  exact .str _

/-- C127 as stated is false: a string of one space in a lib comes back empty. -/
theorem C127_false (mid : IOF → IOF → IOF) {lio : LeafIO L} (hl : LeafLaws lio) (lay lay' : XmlText.Layout) (hy : Lays lay)
    (hy' : Lays lay') :
    ∃ g : Glif PD (Dict L), g.lib = .plist [("k".toList, .str " ".toList)] ∧
      ∃ s g', writeText (io lio lay) (XmlText.io lay') g = .ok s ∧
        readText (PD := PD) mid (io lio lay) (XmlText.io lay') {} s = .ok g' ∧ g'.lib = .plist [("k".toList, .str [])] := by
  refine ⟨{ name := "a".toList, lib := .plist Sample.spaced }, rfl, ?_⟩
  obtain ⟨s, g', hw, -, hr, hlib⟩ := C127_glyph (PD := PD) mid hl lay lay' hy hy' { name := "a".toList } Sample.spaced
    ⟨fun o h => (nomatch h), fun w h => (nomatch h), fun a h => (nomatch h), trivial⟩
    ⟨attr_ascii (s := "a".toList) (by decide), fun a h => (nomatch h), fun o h => (nomatch h), fun c h => (nomatch h),
      fun i h => (nomatch h), fun l h => (nomatch h), fun k h => (nomatch h), fun d h => (nomatch h), fun e h => (nomatch h)⟩
    (fun n h => (nomatch h)) spaced_printable spaced_distinct
  exact ⟨s, g', hw, hr, hlib⟩

/-- C127 as stated is false: of two entries whose keys are white space, one is lost. -/
theorem C127_keys_false {lio : LeafIO L} (hl : LeafLaws lio) (lay : XmlText.Layout) (hy : Lays lay) :
    ∃ d : Dict L, Printable (.dict d) ∧ d = [(" ".toList, .bool true), ("  ".toList, .bool false)] ∧
      ComesBack (io lio lay) d [([], .bool false)] := by
  have hp : Printable (.dict ([(" ".toList, .bool true), ("  ".toList, .bool false)] : Dict L)) := by
    refine .dict _ (by simp) (fun e he => ?_) fun e he => ?_ <;> rcases List.mem_cons.1 he with rfl | he <;>
      try rw [List.mem_singleton.1 he]
    · show PlainText " ".toList
      decide
    · show PlainText "  ".toList
      decide
    · exact .bool _
    · exact .bool _
  refine ⟨_, hp, rfl, (comesBack_iff hl lay hy _ _ hp).2 ?_⟩
  have h1 : heardText " ".toList = [] := by decide
  have h2 : heardText "  ".toList = [] := by decide
  simp only [hearEntries, hear, h1, h2]
  rfl

/-- A dictionary with an array of an integer, a number and a date, and a dictionary in it. -/
def Sample.nested : Dict (Fin (2 ^ 64)) :=
  [("public.x".toList, .array [.int (-7), .real (Flt.ofInt b64 3), .leaf 5, .str []]),
    ("".toList, .dict [("a < b".toList, .str " & \n".toList), ("c".toList, .bool false)])]

theorem nested_printable : Printable (.dict Sample.nested) := by
  refine .dict _ (by decide) (by decide) fun e he => ?_
  rcases List.mem_cons.1 he with rfl | he
  · refine .array _ fun v hv => ?_
    simp only [List.mem_cons, List.not_mem_nil, or_false] at hv
    rcases hv with rfl | rfl | rfl | rfl
    · exact .int _ (by decide) (by decide)
    · exact .real _
    · exact .leaf _
    · exact .str _ (by decide)
  · rw [List.mem_singleton.1 he]
    refine .dict _ (by decide) (by decide) fun e he => ?_
    rcases List.mem_cons.1 he with rfl | he
    · exact .str _ (by decide)
    · rw [List.mem_singleton.1 he]; exact .bool _

theorem nested_audible : Audible (.dict Sample.nested) := by
  refine .dict _ (by decide) fun e he => ?_
  rcases List.mem_cons.1 he with rfl | he
  · refine .array _ fun v hv => ?_
    simp only [List.mem_cons, List.not_mem_nil, or_false] at hv
    rcases hv with rfl | rfl | rfl | rfl
    · exact .int _
    · exact .real _
    · exact .leaf _
    · exact .str _ (by decide)
  · rw [List.mem_singleton.1 he]
    refine .dict _ (by decide) fun e he => ?_
    rcases List.mem_cons.1 he with rfl | he
    · exact .str _ (by decide)
    · rw [List.mem_singleton.1 he]; exact .bool _

/-- It comes back as itself. -/
example : ComesBack (io Sample.dates64 .indented) Sample.nested Sample.nested :=
  (C127_exact dates_laws .indented lays_indented _ nested_printable).2 nested_audible

/-- And the spaced one does not. -/
example : ¬ ComesBack (io Sample.dates64 .indented) Sample.spaced Sample.spaced := fun h => by
  cases (C127_exact dates_laws .indented lays_indented _ spaced_printable).1 h with
  | dict _ hk hv =>
    cases hv _ (List.mem_singleton.2 rfl) with
    | str _ h => exact absurd (h (by decide)) (by decide)

end GP
