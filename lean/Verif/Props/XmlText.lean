import Verif.Lemmas.XmlText
import Verif.Props.Files
import Verif.Props.Debug
/-!
# C97: the text of a glyph
-/
open Fl Fl.Text
namespace GP
open Spec XmlText
variable {PD D : Type}

/-! ## Texts of numbers -/

theorem attr_ascii {s : Str} (h : ∀ c ∈ s, 0x20 ≤ c.toNat ∧ c.toNat < 0x7F) : AttrText s := by
  intro c hc
  have := h c hc
  refine ⟨Or.inr (Or.inr (Or.inr ⟨this.1, by omega, by omega⟩)), ?_⟩
  rintro rfl
  exact absurd this.1 (by decide)

theorem attr_append {s t : Str} (hs : AttrText s) (ht : AttrText t) : AttrText (s ++ t) := fun c hc =>
  (List.mem_append.1 hc).elim (hs c) (ht c)

theorem attr_cons {c : Char} {s : Str} (hc : 0x20 ≤ c.toNat ∧ c.toNat < 0x7F) (hs : AttrText s) : AttrText (c :: s) :=
  attr_append (s := [c]) (attr_ascii fun d hd => by rw [List.mem_singleton.1 hd]; exact hc) hs

theorem attr_digits {b : Nat} (hb : 2 ≤ b) (hb' : b ≤ 16) (n : Nat) : AttrText (toDigits b n) := by
  apply attr_ascii
  intro c hc
  obtain ⟨d, hd, rfl⟩ := toDigits_chars hb hb' n c hc
  have : d < 16 := by omega
  have key : ∀ d < 16, 0x20 ≤ (digitChar d).toNat ∧ (digitChar d).toNat < 0x7F := by decide
  exact key d this

theorem attr_int (i : Int) : AttrText (showInt i) := by
  unfold showInt
  split
  · exact attr_cons (by decide) (attr_digits (by decide) (by decide) _)
  · exact attr_digits (by decide) (by decide) _

theorem attr_dec (d xp xn : Nat) : AttrText (showDec d xp xn) := by
  unfold showDec
  split
  · exact attr_digits (by decide) (by decide) _
  · refine attr_append (attr_digits (by decide) (by decide) _) (attr_cons (by decide) (attr_append ?_ (attr_digits (by decide) (by decide) _)))
    exact attr_ascii fun c hc => by rw [(List.mem_replicate.1 hc).2]; decide

theorem attr_mag (f : Fmt) (k : Nat) : AttrText (showMag f k) := by
  unfold showMag
  split
  · exact attr_ascii (by decide)
  · split
    · exact attr_ascii (by decide)
    · exact attr_dec _ _ _

theorem attr_float {f : Fmt} (x : Flt f) : AttrText (showFloat x) := by
  cases x with
  | nan => exact attr_ascii (by simp only [showFloat]; decide)
  | num s k h =>
    unfold showFloat
    cases s
    · exact attr_mag _ _
    · exact attr_cons (by decide) (attr_mag _ _)

theorem attr_iof (x : IOF) : AttrText x.text := by
  cases x with
  | int i h => exact attr_int i
  | float x => exact attr_float x

theorem attr_color (c : Color) : AttrText c.text :=
  attr_append (attr_append (attr_append (attr_iof _) (attr_cons (by decide) (attr_iof _))) (attr_cons (by decide) (attr_iof _)))
    (attr_cons (by decide) (attr_iof _))

/-! ## Elements -/

instance (c : Char) : Decidable (XmlChar c) := by unfold XmlChar; infer_instance
instance (c : Char) : Decidable (NameChar c) := by unfold NameChar; infer_instance
instance (n : String) : Decidable (XmlName n) := by unfold XmlName; infer_instance

theorem mem_insertAttr {k : String} {v : Str} {l : List (String × Str)} {a : String × Str} (h : a ∈ insertAttr k v l) :
    a = (k, v) ∨ a ∈ l := by
  induction l with
  | nil => exact Or.inl (by simpa [insertAttr] using h)
  | cons b l ih =>
    unfold insertAttr at h
    split at h
    · rcases List.mem_cons.1 h with h | h
      · exact Or.inl h
      · exact Or.inr (by simp [h])
    · rcases List.mem_cons.1 h with h | h
      · exact Or.inr (by simp [h])
      · rcases ih h with h | h
        · exact Or.inl h
        · exact Or.inr (by simp [h])

theorem nodup_insertAttr {k : String} {v : Str} {l : List (String × Str)} (h : (l.map (·.1)).Nodup) :
    ((insertAttr k v l).map (·.1)).Nodup := by
  induction l with
  | nil => simp [insertAttr]
  | cons b l ih =>
    rw [List.map_cons, List.nodup_cons] at h
    unfold insertAttr
    split
    · next he => rw [List.map_cons, List.nodup_cons, ← he]; exact h
    · next he =>
      rw [List.map_cons, List.nodup_cons]
      refine ⟨?_, ih h.2⟩
      intro hm
      obtain ⟨a, ha, hab⟩ := List.mem_map.1 hm
      rcases mem_insertAttr ha with rfl | ha
      · exact he hab.symm
      · exact h.1 (List.mem_map.2 ⟨a, ha, hab⟩)

theorem xmlAttrs_set {e : Element} {k : String} {v : Str} (he : XmlAttrs e.attrs) (hk : XmlName k) (hv : AttrText v) :
    XmlAttrs (e.set k v).attrs :=
  ⟨nodup_insertAttr he.1, fun a ha => (mem_insertAttr ha).elim (fun h => by rw [h]; exact ⟨hk, hv⟩) (he.2 a)⟩

theorem xmlAttrs_setOpt {e : Element} {k : String} {o : Option Str} (he : XmlAttrs e.attrs) (hk : XmlName k)
    (hv : ∀ v, o = some v → AttrText v) : XmlAttrs (e.setOpt k o).attrs := by
  cases o with
  | none => exact he
  | some v => exact xmlAttrs_set he hk (hv v rfl)

theorem xmlAttrs_nil (n : String) (cs : List Node) : XmlAttrs (⟨n, [], cs⟩ : Element).attrs := ⟨by simp, by simp⟩

theorem apart_elems (els : List Element) : Apart (els.map Element.node) := by
  intro i s t hi
  rw [List.getElem?_map] at hi
  cases h : els[i]? <;> rw [h] at hi <;> cases hi

/-- An element with children that are elements. -/
theorem say_elems {e : Element} (hn : XmlName e.name) (ha : XmlAttrs e.attrs) (els : List Element) (hk : e.children = els.map Element.node)
    (hc : ∀ c ∈ els, Sayable c.node) : Sayable e.node := by
  refine .elem _ _ _ hn ha ?_ (by rw [hk]; exact apart_elems els)
  intro c hc'
  rw [hk] at hc'
  obtain ⟨x, hx, rfl⟩ := List.mem_map.1 hc'
  exact hc x hx

theorem say_leaf {e : Element} (hn : XmlName e.name) (ha : XmlAttrs e.attrs) (hk : e.children = []) : Sayable e.node :=
  say_elems hn ha [] hk (by simp)

theorem say_matrix {e : Element} {m : Mat6} {i : Option Str} (hn : XmlName e.name) (ha : XmlAttrs e.attrs) (hk : e.children = [])
    (hi : ∀ s, i = some s → AttrText s) : Sayable (writeMatrix e m i).node := by
  unfold writeMatrix
  refine say_leaf ?_ ?_ ?_
  · cases i <;> exact hn
  · exact xmlAttrs_set (xmlAttrs_set (xmlAttrs_set (xmlAttrs_set (xmlAttrs_set (xmlAttrs_set (xmlAttrs_setOpt ha (by decide) hi) (by decide) (attr_iof _))
      (by decide) (attr_iof _)) (by decide) (attr_iof _)) (by decide) (attr_iof _)) (by decide) (attr_iof _)) (by decide) (attr_iof _)
  · cases i <;> exact hk

theorem say_advance (w : Nat) : Sayable (advanceXml w).node :=
  say_leaf (e := advanceXml w) (show XmlName "advance" by decide) (xmlAttrs_set (xmlAttrs_nil _ _) (by decide) (attr_digits (by decide) (by decide) _)) rfl

theorem say_unicode (c : Char) : Sayable (unicodeXml c).node :=
  say_leaf (e := unicodeXml c) (show XmlName "unicode" by decide) (xmlAttrs_set (xmlAttrs_nil _ _) (by decide) (attr_digits (by decide) (by decide) _)) rfl

theorem say_anchor (a : Anchor) (h : ∀ s, a.cls = some s → AttrText s) : Sayable (anchorXml a).node := by
  refine say_leaf (e := anchorXml a) ?_ ?_ ?_
  · rw [show (anchorXml a).name = "anchor" by simp]; decide
  · exact xmlAttrs_setOpt (xmlAttrs_set (xmlAttrs_set (xmlAttrs_nil _ _) (by decide) (attr_float _)) (by decide) (attr_float _)) (by decide) h
  · unfold anchorXml; cases a.cls <;> rfl

theorem say_component (c : GlifComponent) (h : AttrText c.base ∧ ∀ s, c.identifier = some s → AttrText s) :
    Sayable (componentXml c).node :=
  say_matrix (show XmlName "component" by decide) (xmlAttrs_set (xmlAttrs_nil _ _) (by decide) h.1) rfl h.2

theorem say_image (i : GlifImage) (h : AttrText i.filename ∧ ∀ s, i.identifier = some s → AttrText s) :
    Sayable (imageXml i).node :=
  say_matrix (show XmlName "image" by decide) (xmlAttrs_set (xmlAttrs_nil _ _) (by decide) h.1) rfl h.2

theorem say_guideline (l : Guideline) (h : (∀ s, l.name = some s → AttrText s) ∧ ∀ s, l.identifier = some s → AttrText s) :
    Sayable (guidelineXml l).node := by
  refine say_leaf (e := guidelineXml l) ?_ ?_ ?_
  · rw [show (guidelineXml l).name = "guideline" by simp]; decide
  · refine xmlAttrs_setOpt (xmlAttrs_setOpt (xmlAttrs_setOpt (xmlAttrs_set (xmlAttrs_set (xmlAttrs_set (xmlAttrs_nil _ _) (by decide) (attr_float _))
      (by decide) (attr_float _)) (by decide) (attr_iof _)) (by decide) ?_) (by decide) h.1) (by decide) h.2
    intro v hv
    obtain ⟨c, -, rfl⟩ := Option.map_eq_some_iff.1 hv
    exact attr_color c
  · unfold guidelineXml; cases l.color <;> cases l.name <;> cases l.identifier <;> rfl

theorem say_point (p : GlifPoint) (h : ∀ s, p.name = some s → AttrText s) : Sayable (pointXml p).node := by
  have hx : XmlAttrs ((({ name := "point" } : Element).set "x" p.x.text).set "y" p.y.text).attrs :=
    xmlAttrs_set (xmlAttrs_set (xmlAttrs_nil _ _) (by decide) (attr_iof _)) (by decide) (attr_iof _)
  have ht : AttrText p.ptype.text := by cases p.ptype <;> exact attr_ascii (by decide)
  unfold pointXml
  simp only
  split_ifs
  all_goals refine say_leaf ?_ ?_ ?_
  all_goals first
    | (cases p.name <;> exact (show XmlName "point" by decide))
    | (cases p.name <;> rfl)
    | skip
  · exact xmlAttrs_set (xmlAttrs_setOpt hx (by decide) h) (by decide) (attr_ascii (by decide))
  · exact xmlAttrs_set (xmlAttrs_setOpt (xmlAttrs_set hx (by decide) ht) (by decide) h) (by decide) (attr_ascii (by decide))
  · exact xmlAttrs_setOpt hx (by decide) h
  · exact xmlAttrs_setOpt (xmlAttrs_set hx (by decide) ht) (by decide) h

/-- The names of points that are written are names of points of the contour. -/
theorem written_names (c : Contour PD) (gc : GlifContour) (h : intoGlifpoints c = .ok gc) :
    ∀ p ∈ gc, ∀ s, p.name = some s → ∃ q ∈ c, q.name = some s := by
  have hnp : ¬ intoGlifpoints c = .panic := by rw [h]; simp
  rw [C05_panics_iff] at hnp
  have h1 : ∃ p ∈ c, p.ptype ≠ .offcurve := by
    by_contra hh; exact hnp (Or.inl fun p hp => by by_contra ho; exact hh ⟨p, hp, ho⟩)
  have h2 : ∀ p ∈ c, Writable p.ptype := by
    intro p hp
    have : ¬ (p.ptype = .undefined ∨ p.ptype = .qclose) := fun hh => hnp (Or.inr ⟨p, hp, hh⟩)
    unfold Writable
    cases hpt : p.ptype <;> simp_all
  obtain ⟨x, r', e, ⟨s, t, hs, ht⟩, _⟩ := C05_file_points c h1 h2
  rw [h] at e
  cases e
  intro p hp
  rw [ht] at hp
  have hp' : p ∈ fileCycle c := by
    rw [hs, List.mem_append]; rw [List.mem_append] at hp; exact hp.symm
  obtain ⟨⟨q, p'⟩, hq, hw⟩ := List.mem_flatMap.1 hp'
  simp only [written] at hw
  split at hw
  · cases hw
  · rcases List.mem_append.1 hw with hw | hw
    · unfold offsBefore at hw
      split at hw <;> simp only [List.mem_cons, List.not_mem_nil, or_false] at hw
      · rcases hw with rfl | rfl <;> exact fun _ h => (nomatch h)
      · rw [hw]; exact fun _ h => (nomatch h)
    · rw [List.mem_singleton] at hw
      rw [hw]
      intro s hs
      exact ⟨p', by rw [← mem_cyclicPairs_snd c]; exact List.mem_map.2 ⟨_, hq, rfl⟩, hs⟩

theorem say_contour (c : Contour PD) (e : Element) (h : contourXml c = .ok e) (hn : ∀ p ∈ c, ∀ s, p.name = some s → AttrText s) :
    Sayable e.node := by
  unfold contourXml at h
  rw [bind_eq_ok] at h
  obtain ⟨gc, hg, h⟩ := h
  cases h
  refine say_elems (e := glifContourXml gc) (show XmlName "contour" by decide) (xmlAttrs_nil _ _) (gc.map pointXml) ?_ ?_
  · simp only [glifContourXml, List.map_map]; rfl
  · intro x hx
    obtain ⟨p, hp, rfl⟩ := List.mem_map.1 hx
    refine say_point p fun s hs => ?_
    obtain ⟨q, hq, hqs⟩ := written_names c gc hg p hp s hs
    exact hn q hq s hqs

/-- The children of the outline that are written. -/
theorem say_outline {pio : PlistIO D} {g : Glif PD D} (h : SayableTexts pio g) {oe : Element} (ho : outlineElem g = .ok oe) :
    oe.name = "outline" ∧ oe.attrs = [] ∧ ∃ els : List Element, oe.children = els.map Element.node ∧ ∀ e ∈ els, Sayable e.node := by
  unfold outlineElem at ho
  cases hg : g.outline with
  | none => rw [hg] at ho; cases ho; exact ⟨rfl, rfl, [], rfl, by simp⟩
  | some o =>
    rw [hg] at ho
    simp only [outlineXml] at ho
    rw [bind_eq_ok] at ho
    obtain ⟨els, hm, ho⟩ := ho
    cases ho
    refine ⟨rfl, rfl, els, rfl, ?_⟩
    intro e he
    obtain ⟨c, hc, hce⟩ := forall₂_mem_right (mapM'_forall₂ hm) he
    exact say_contour c e hce fun p hp => h.points o hg c hc p hp

/-- What is written before the note. -/
theorem say_front (pio : PlistIO D) (g : Glif PD D) (h : SayableTexts pio g) (oe : Element) (ho : outlineElem g = .ok oe) :
    ∃ els : List Element, (∀ e ∈ els, Sayable e.node ∧ e.name ≠ "note") ∧ ∀ note lib,
      writtenKids pio { g with note := note, lib := lib } oe =
        els.map Element.node ++ (note.toList.map fun n => (noteXml n).node) ++ ((libXml pio lib).toList.map fun e => e.node) := by
  obtain ⟨hon, hoa, oels, hoc, hos⟩ := say_outline h ho
  refine ⟨g.width.toList.map advanceXml ++ g.unicode.map unicodeXml ++ g.anchors.map anchorXml ++
    (if 1 ≤ (oe.children ++ g.components.vec.map fun c => (componentXml c).node).length then
      [({ oe with children := oe.children ++ g.components.vec.map fun c => (componentXml c).node } : Element)] else []) ++
    g.images.map imageXml ++ g.guidelines.map guidelineXml, ?_, ?_⟩
  · intro e he
    simp only [List.mem_append, List.mem_map] at he
    rcases he with ((((⟨w, -, rfl⟩ | ⟨c, -, rfl⟩) | ⟨a, ha, rfl⟩) | he) | ⟨i, hi, rfl⟩) | ⟨l, hl, rfl⟩
    · exact ⟨say_advance w, by simp [advanceXml, Element.set]⟩
    · exact ⟨say_unicode c, by simp [unicodeXml, Element.set]⟩
    · exact ⟨say_anchor a (h.anchors a ha), by simp⟩
    · split at he
      · rw [List.mem_singleton] at he
        subst he
        refine ⟨say_elems (e := { oe with children := _ }) ?_ ?_ (oels ++ g.components.vec.map componentXml) ?_ ?_, ?_⟩
        · rw [show (({ oe with children := oe.children ++ g.components.vec.map fun c => (componentXml c).node } : Element)).name = _ from hon]
          decide
        · rw [show (({ oe with children := oe.children ++ g.components.vec.map fun c => (componentXml c).node } : Element)).attrs = _ from hoa]
          exact xmlAttrs_nil "" []
        · simp only [hoc, List.map_append, List.map_map]; rfl
        · intro x hx
          rcases List.mem_append.1 hx with hx | hx
          · exact hos x hx
          · obtain ⟨c, hc, rfl⟩ := List.mem_map.1 hx
            exact say_component c (h.components c hc)
        · simp [hon]
      · cases he
    · exact ⟨say_image i (h.images i hi), by simp⟩
    · exact ⟨say_guideline l (h.guidelines l hl), by simp⟩
  · intro note lib
    unfold writtenKids
    simp only [List.map_append, List.map_map]
    congr 5
    split <;> rfl

/-! ## C97 -/

theorem lays_indented : Lays Layout.indented := by
  intro d cs
  constructor
  · intro c hc
    unfold Layout.indented at hc
    simp only at hc
    split at hc
    · simp at hc
    · simp only [List.mem_append, List.mem_cons, List.mem_replicate] at hc
      tauto
  · intro s hs
    have : cs.any Node.isChars = true := List.any_eq_true.2 ⟨_, List.mem_of_getLast? hs, rfl⟩
    unfold Layout.indented
    simp [this]

/-- **C97.** What XML can say is said: a document is parsed from its text as it was. -/
theorem C97_document (lay : Layout) (hl : Lays lay) (e : Element) (h : Sayable e.node) : parse (print lay e) = some e := by
  obtain ⟨n, as, cs⟩ := e
  cases h with
  | elem _ _ _ hn ha hc hs =>
    have := parse_print lay hl ⟨n, as, cs⟩ (cs.map fun c => (c, c)) (map_pair cs).1.symm hn ha (by
      intro p hp
      obtain ⟨c, hc', rfl⟩ := List.mem_map.1 hp
      exact .same c (hc c hc')) hs
    rw [(map_pair cs).2] at this
    exact this

theorem say_lib (pio : PlistIO D) (g : Glif PD D) (h : SayableTexts pio g) (e : Element) (he : libXml pio g.lib = some e) :
    Sayable e.node := by
  have hn := libXml_name he
  unfold libXml at he
  cases hg : g.lib with
  | none => rw [hg] at he; cases he
  | plist d =>
    rw [hg] at he
    obtain ⟨x, hx, rfl⟩ := Option.map_eq_some_iff.1 he
    obtain ⟨h1, h2⟩ := h.plist d hg x hx
    exact .elem _ _ _ (show XmlName "lib" by decide) (xmlAttrs_nil "" []) h1 h2
  | xml x =>
    rw [hg] at he
    cases he
    obtain ⟨h1, h2⟩ := h.xml x hg
    exact .elem _ _ _ (show XmlName "lib" by decide) (xmlAttrs_nil "" []) h1 h2

theorem named_front (els : List Element) (h : ∀ e ∈ els, e.name ≠ "note") : named "note" (els.map Element.node) = [] := by
  induction els with
  | nil => rfl
  | cons e els ih =>
    rw [List.map_cons, named_cons, named_node, if_neg (h e (by simp)), ih fun e he => h e (by simp [he])]
    rfl

theorem apart_nodes (cs : List Node) (h : ∀ c ∈ cs, ∀ s, c ≠ .text s) : Apart cs :=
  fun _ s _ hi => absurd rfl (h _ (List.mem_of_getElem? hi) s)

open Classical in
theorem heard_eq (g : Glif PD D) (h : ∀ n, g.note = some n → ¬ Blank n) : heard g = g := by
  have : (g.note.bind fun n => if Blank n then none else some n) = g.note := by
    cases hg : g.note with
    | none => rfl
    | some n => exact if_neg (h n hg)
  unfold heard
  rw [this]

/-- The document that is parsed from the text of a glyph says the same as the glyph without a blank
note. -/
theorem text_document (pio : PlistIO D) (lay : Layout) (hl : Lays lay) (g : Glif PD D) (h : SayableTexts pio g) (e : Element)
    (he : glifXml pio g = .ok e) :
    ∃ e' eh, parse (print lay e) = some e' ∧ glifXml pio (heard g) = .ok eh ∧ SameDoc eh e' := by
  rw [glifXml_eq, bind_eq_ok] at he
  obtain ⟨oe, ho, he⟩ := he
  cases he
  obtain ⟨els, hels, hk⟩ := say_front pio g h oe ho
  have hk1 : writtenKids pio g oe = _ := hk g.note g.lib
  have hk2 : writtenKids pio (heard g) oe = _ := hk (heard g).note g.lib
  have hh : glifXml pio (heard g) = .ok { (({ name := "glyph" } : Element).set "name" g.name).set "format" "2".toList with
      children := writtenKids pio (heard g) oe } := by
    rw [glifXml_eq, show outlineElem (heard g) = .ok oe from ho, Out.bind_ok]
    rfl
  have hn : XmlName ((({ name := "glyph" } : Element).set "name" g.name).set "format" "2".toList).name :=
    show XmlName "glyph" by decide
  have ha : XmlAttrs ((({ name := "glyph" } : Element).set "name" g.name).set "format" "2".toList).attrs :=
    xmlAttrs_set (xmlAttrs_set (xmlAttrs_nil _ _) (by decide) h.name) (by decide) (attr_ascii (by decide))
  have hlib : ∀ c ∈ (libXml pio g.lib).toList.map fun e => e.node, Sayable c := by
    intro c hc
    obtain ⟨x, hx, rfl⟩ := List.mem_map.1 hc
    exact say_lib pio g h x (Option.mem_toList.1 hx)
  have hfront : ∀ c ∈ els.map Element.node, Sayable c := by
    intro c hc
    obtain ⟨x, hx, rfl⟩ := List.mem_map.1 hc
    exact (hels x hx).1
  have htag : ∀ note : Option Str, ∀ c ∈ els.map Element.node ++ (note.toList.map fun n => (noteXml n).node) ++
      ((libXml pio g.lib).toList.map fun e => e.node), ∀ s, c ≠ .text s := by
    intro note c hc s hs
    subst hs
    simp only [List.mem_append, List.mem_map] at hc
    rcases hc with (⟨x, -, hx⟩ | ⟨x, -, hx⟩) | ⟨x, -, hx⟩ <;> cases hx
  by_cases hblank : ∃ n, g.note = some n ∧ Blank n
  · obtain ⟨n, hg, hb⟩ := hblank
    have hheard : (heard g).note = none := by simp [heard, hg, hb]
    have hsame : writtenKids pio g oe = els.map Element.node ++ [(noteXml n).node] ++ ((libXml pio g.lib).toList.map fun e => e.node) := by
      refine hk1.trans ?_
      rw [hg]
      rfl
    have hh2 : writtenKids pio (heard g) oe = els.map Element.node ++ ((libXml pio g.lib).toList.map fun e => e.node) := by
      refine hk2.trans ?_
      rw [hheard]
      simp
    set ps : List (Node × Node) := (els.map Element.node).map (fun c => (c, c)) ++ [((noteXml n).node, .elem "note" [] [])] ++
      ((libXml pio g.lib).toList.map fun e => e.node).map (fun c => (c, c)) with hps
    have hp := parse_print lay hl { (({ name := "glyph" } : Element).set "name" g.name).set "format" "2".toList with
        children := writtenKids pio g oe } ps (by
          simp only [hsame, hps, List.map_append, (map_pair _).1, List.map_cons, List.map_nil]) hn ha (by
          intro p hp
          rw [hps, List.mem_append, List.mem_append] at hp
          rcases hp with (hp | hp) | hp
          · obtain ⟨c, hc, rfl⟩ := List.mem_map.1 hp
            exact .same c (hfront c hc)
          · rw [List.mem_singleton.1 hp]
            exact .blank _ _ n (show XmlName "note" by decide) (xmlAttrs_nil "" []) (h.note n hg) hb
          · obtain ⟨c, hc, rfl⟩ := List.mem_map.1 hp
            exact .same c (hlib c hc)) (by
          have := htag (some n)
          rw [Option.toList_some, List.map_singleton, ← hsame] at this
          exact apart_nodes _ this)
    refine ⟨_, _, hp, hh, ?_⟩
    have hps2 : ps.map (·.2) = els.map Element.node ++ [.elem "note" [] []] ++ ((libXml pio g.lib).toList.map fun e => e.node) := by
      simp only [hps, List.map_append, (map_pair _).2, List.map_cons, List.map_nil]
    have hother : ∀ m, m ≠ "note" → named m (writtenKids pio (heard g) oe) = named m (ps.map (·.2)) := by
      intro m hm
      rw [hh2, hps2, named_append, named_append, named_append, named_cons_elem, if_neg fun e => hm e.symm]
      simp
    have hrel : ∀ m, m ≠ "note" → ∀ rel : Element → Element → Prop, (∀ e, rel e e) →
        List.Forall₂ rel (named m (writtenKids pio (heard g) oe)) (named m (ps.map (·.2))) := by
      intro m hm rel hr
      rw [hother m hm]
      exact List.forall₂_same.2 fun e _ => hr e
    refine ⟨rfl, fun _ => rfl, hrel _ (by decide) _ sameLeaf_refl, hrel _ (by decide) _ sameLeaf_refl, hrel _ (by decide) _ sameLeaf_refl,
      hrel _ (by decide) _ sameLeaf_refl, hrel _ (by decide) _ sameLeaf_refl, ?_, hrel _ (by decide) _ sameOutline_refl,
      hrel _ (by decide) _ fun _ => ⟨rfl, rfl⟩⟩
    have hf := named_front els fun e he => (hels e he).2
    have hlibn : named "note" ((libXml pio g.lib).toList.map fun e => e.node) = [] := by
      cases hx : libXml pio g.lib with
      | none => rfl
      | some x =>
        rw [Option.toList_some, List.map_singleton, named_node, if_neg]
        rw [libXml_name hx]; decide
    simp only [noteTexts]
    rw [hh2, hps2, named_append, named_append, named_append, hf, hlibn, named_cons_elem, if_pos rfl]
    rfl
  · have hheard : heard g = g := heard_eq g fun n hg hb => hblank ⟨n, hg, hb⟩
    rw [hheard] at hh ⊢
    refine ⟨_, _, C97_document lay hl _ ?_, hh, sameDoc_refl _⟩
    refine .elem _ _ _ hn ha ?_ ?_
    · intro c hc
      rw [show ({ (({ name := "glyph" } : Element).set "name" g.name).set "format" "2".toList with
        children := writtenKids pio g oe } : Element).children = writtenKids pio g oe from rfl, hk1,
        List.mem_append, List.mem_append] at hc
      rcases hc with (hc | hc) | hc
      · exact hfront c hc
      · obtain ⟨n, hn', rfl⟩ := List.mem_map.1 hc
        have hg := Option.mem_toList.1 hn'
        refine .elem _ _ _ (show XmlName "note" by decide) (xmlAttrs_nil "" []) ?_ ?_
        · intro c hc
          rw [List.mem_singleton.1 hc]
          exact .text n (h.note n hg) fun hb => hblank ⟨n, hg, hb⟩
        · intro i s t _
          simp [noteXml]
      · exact hlib c hc
    · apply apart_nodes
      rw [show ({ (({ name := "glyph" } : Element).set "name" g.name).set "format" "2".toList with
        children := writtenKids pio g oe } : Element).children = writtenKids pio g oe from rfl, hk1]
      exact htag g.note

/-- **C97.** Whatever strings a glyph has that XML can say — brackets, quotes, ampersands, elements — its
text is read as the document that was written, but for a note of white space.  This is for every glyph
that can be written, with any pedantry. -/
theorem C97_text (mid : IOF → IOF → IOF) (pio : PlistIO D) (lay : Layout) (hl : Lays lay) (ped : Pedantry) (g : Glif PD D)
    (h : SayableTexts pio g) (s : Str) (hw : writeText pio (io lay) g = .ok s) :
    readText (PD := PD) mid pio (io lay) ped s = (glifXml pio (heard g) >>= readGlif mid pio ped) := by
  unfold writeText at hw
  rw [bind_eq_ok] at hw
  obtain ⟨e, he, hw⟩ := hw
  cases hw
  obtain ⟨e', eh, h1, h2, h3⟩ := text_document pio lay hl g h e he
  unfold readText
  rw [show (io lay).parse (print lay e) = some e' from h1, h2, Out.ofOption_some, Out.bind_ok, Out.bind_ok,
    C09_same_document mid pio ped eh e' h3]

/-- **C97, the part that holds.** A glyph whose strings XML can say and whose note is not blank is read
from its text as it was saved. -/
theorem C97_partial (mid : IOF → IOF → IOF) (pio : PlistIO D) (lay : Layout) (hl : Lays lay) (g : Glif PD D) (hs : Saveable pio g)
    (h : SayableTexts pio g) (hb : ∀ n, g.note = some n → ¬ Blank n) :
    ∃ s g', writeText pio (io lay) g = .ok s ∧ readText mid pio (io lay) {} s = .ok g' ∧ Resaved g g' := by
  have hheard := heard_eq g hb
  obtain ⟨g', hg, hr⟩ := C01_partial mid pio g hs
  cases he : glifXml pio g with
  | err er => rw [he] at hg; cases hg
  | panic => rw [he] at hg; cases hg
  | ok e =>
    have hw : writeText pio (io lay) g = .ok (print lay e) := by
      unfold writeText; rw [he, Out.bind_ok]; rfl
    exact ⟨_, g', hw, by rw [C97_text mid pio lay hl {} g h _ hw, hheard, hg], hr⟩

/-- **C97.** So what C82, C83 and C84 ask of the library is true of this printer and parser. -/
theorem C97_prints (pio : PlistIO D) (lay : Layout) (hl : Lays lay) (g : Glif PD D) (h : SayableTexts pio g)
    (hb : ∀ n, g.note = some n → ¬ Blank n) (e : Element) (he : glifXml pio g = .ok e) : Prints (io lay) e := by
  obtain ⟨e', eh, h1, h2, h3⟩ := text_document pio lay hl g h e he
  rw [heard_eq g hb, he] at h2
  cases h2
  exact ⟨_, rfl, e', h1, h3⟩

/-! ## Notes -/

/-- A glyph of which nothing but the name and the note is given. -/
theorem noted_saveable (pio : PlistIO D) (n m : Str) : Saveable pio ({ name := n, note := some m } : Glif PD D) :=
  ⟨fun o h => (nomatch h), fun w h => (nomatch h), fun a h => (nomatch h), trivial⟩

theorem noted_sayable (pio : PlistIO D) (n m : Str) (hn : AttrText n) (hm : PlainText m) :
    SayableTexts pio ({ name := n, note := some m } : Glif PD D) :=
  ⟨hn, fun a h => (nomatch h), fun o h => (nomatch h), fun c h => (nomatch h), fun i h => (nomatch h), fun l h => (nomatch h),
    fun k h => Option.some.inj h ▸ hm, fun d h => (nomatch h), fun e h => (nomatch h)⟩

/-- C97 as stated is false of a note of white space: it is written, and not read. -/
theorem C97_false (mid : IOF → IOF → IOF) (pio : PlistIO D) (lay : Layout) (hl : Lays lay) :
    ∃ g : Glif PD D, Saveable pio g ∧ SayableTexts pio g ∧
      ∃ s g', writeText pio (io lay) g = .ok s ∧ readText (PD := PD) mid pio (io lay) {} s = .ok g' ∧
        g.note = some "  ".toList ∧ g'.note = none := by
  refine ⟨{ name := "a".toList, note := some "  ".toList }, noted_saveable pio _ _,
    noted_sayable pio _ _ (attr_ascii (by decide)) (by decide), ?_⟩
  have hb : Blank "  ".toList := by decide
  have hh : heard ({ name := "a".toList, note := some "  ".toList } : Glif PD D) = { name := "a".toList } := by
    unfold heard
    simp only [Option.bind_some, if_pos hb]
  have hs : Saveable pio ({ name := "a".toList } : Glif PD D) :=
    ⟨fun o h => (nomatch h), fun w h => (nomatch h), fun a h => (nomatch h), trivial⟩
  obtain ⟨g', hg, hr⟩ := C01_partial mid pio _ hs
  obtain ⟨e, he⟩ : ∃ e, glifXml pio ({ name := "a".toList, note := some "  ".toList } : Glif PD D) = .ok e := ⟨_, rfl⟩
  have hw : writeText pio (io lay) ({ name := "a".toList, note := some "  ".toList } : Glif PD D) = .ok (print lay e) := by
    unfold writeText; rw [he, Out.bind_ok]; rfl
  refine ⟨_, g', hw, ?_, rfl, hr.note⟩
  rw [C97_text mid pio lay hl {} _ (noted_sayable pio _ _ (attr_ascii (by decide)) (by decide)) _ hw, hh, hg]

/-- Brackets, quotes and ampersands in a name and in a note, indented as the code asks for. -/
example (mid : IOF → IOF → IOF) (pio : PlistIO D) :
    ∃ s g', writeText pio (io .indented) ({ name := "a<b>&\"c'".toList, note := some "x < y &amp; \n\t]]> z".toList } : Glif PD D) = .ok s ∧
      readText (PD := PD) mid pio (io .indented) {} s = .ok g' ∧ g'.name = "a<b>&\"c'".toList ∧
        g'.note = some "x < y &amp; \n\t]]> z".toList := by
  obtain ⟨s, g', h1, h2, h3⟩ := C97_partial (PD := PD) mid pio .indented lays_indented
    { name := "a<b>&\"c'".toList, note := some "x < y &amp; \n\t]]> z".toList } (noted_saveable pio _ _)
    (noted_sayable pio _ _ (attr_ascii (by decide +kernel)) (by decide +kernel))
    (fun n h => Option.some.inj h ▸ by decide +kernel)
  exact ⟨s, g', h1, h2, h3.name, h3.note⟩

end GP
