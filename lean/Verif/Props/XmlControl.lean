import Verif.Lemmas.XmlControl
/-!
# C97: characters that XML does not have
-/
open Fl Fl.Text
namespace GP
open Spec XmlText
variable {PD D : Type}

theorem insertAttr_self (k : String) (v : Str) (l : List (String × Str)) : (k, v) ∈ insertAttr k v l := by
  induction l with
  | nil => simp [insertAttr]
  | cons b l ih =>
    unfold insertAttr
    split
    · simp
    · exact List.mem_cons_of_mem _ ih

theorem insertAttr_other {k k' : String} {v v' : Str} {l : List (String × Str)} (h : (k', v') ∈ l) (hk : k' ≠ k) :
    (k', v') ∈ insertAttr k v l := by
  induction l with
  | nil => cases h
  | cons b l ih =>
    unfold insertAttr
    rcases List.mem_cons.1 h with rfl | h
    · rw [if_neg hk]; simp
    · split
      · exact List.mem_cons_of_mem _ h
      · exact List.mem_cons_of_mem _ (ih h)

theorem setOpt_other {e : Element} {k k' : String} {o : Option Str} {v : Str} (h : (k', v) ∈ e.attrs) (hk : k' ≠ k) :
    (k', v) ∈ (e.setOpt k o).attrs := by
  cases o with
  | none => exact h
  | some v => exact insertAttr_other h hk

theorem holds_attr {c : Char} {e : Element} {k : String} {v : Str} (h : (k, v) ∈ e.attrs) (hc : c ∈ v) : Holds c e.node :=
  .attr e.name e.attrs e.children _ h hc

theorem matrix_has {e : Element} {m : Mat6} {i : Option Str} {k : String} {v : Str} (h : (k, v) ∈ e.attrs)
    (hk : k ∉ ["identifier", "xScale", "xyScale", "yxScale", "yScale", "xOffset", "yOffset"]) :
    (k, v) ∈ (writeMatrix e m i).attrs := by
  simp only [List.mem_cons, List.not_mem_nil, or_false, not_or] at hk
  obtain ⟨h1, h2, h3, h4, h5, h6, h7⟩ := hk
  exact insertAttr_other (insertAttr_other (insertAttr_other (insertAttr_other (insertAttr_other (insertAttr_other
    (setOpt_other h h1) h2) h3) h4) h5) h6) h7

theorem matrix_identifier {e : Element} {m : Mat6} {s : Str} : ("identifier", s) ∈ (writeMatrix e m (some s)).attrs :=
  insertAttr_other (insertAttr_other (insertAttr_other (insertAttr_other (insertAttr_other (insertAttr_other
    (insertAttr_self _ _ _) (by decide)) (by decide)) (by decide)) (by decide)) (by decide)) (by decide)

/-- The names of the points on the curve are all written. -/
theorem names_written (k : Contour PD) (gc : GlifContour) (h : intoGlifpoints k = .ok gc) (p : Point PD) (hp : p ∈ k)
    (hc : p.ptype ≠ .offcurve) : ∃ q ∈ gc, q.name = p.name := by
  have hnp : ¬ intoGlifpoints k = .panic := by rw [h]; simp
  rw [C05_panics_iff] at hnp
  have h2 : ∀ p ∈ k, Writable p.ptype := by
    intro p hp
    have : ¬ (p.ptype = .undefined ∨ p.ptype = .qclose) := fun hh => hnp (Or.inr ⟨p, hp, hh⟩)
    unfold Writable
    cases hpt : p.ptype <;> simp_all
  obtain ⟨x, r', e, ⟨s, t, hs, ht⟩, _⟩ := C05_file_points k ⟨p, hp, hc⟩ h2
  rw [h] at e
  cases e
  rw [← mem_cyclicPairs_snd k] at hp
  obtain ⟨⟨q, p'⟩, hm, rfl⟩ := List.mem_map.1 hp
  refine ⟨on p', ?_, rfl⟩
  have : on p' ∈ fileCycle k := List.mem_flatMap.2 ⟨(q, p'), hm, by
    simp only [written]
    rw [if_neg hc]
    simp⟩
  rw [hs, List.mem_append] at this
  rw [ht, List.mem_append]
  exact this.symm

theorem point_holds {c : Char} {p : GlifPoint} {s : Str} (hs : p.name = some s) (hc : c ∈ s) : Holds c (pointXml p).node := by
  unfold pointXml
  simp only [hs]
  split
  · exact holds_attr (k := "name") (v := s) (insertAttr_other (insertAttr_self _ _ _) (by decide)) hc
  · exact holds_attr (k := "name") (v := s) (insertAttr_self _ _ _) hc

/-- The character is in the document that is written. -/
theorem written_holds {c : Char} (pio : PlistIO D) (g : Glif PD D) (h : HasChar c g) (e : Element) (he : glifXml pio g = .ok e) :
    Holds c e.node := by
  rw [glifXml_eq, bind_eq_ok] at he
  obtain ⟨oe, ho, he⟩ := he
  cases he
  have kid : ∀ x, x ∈ writtenKids pio g oe → Holds c x → Holds c (Element.node
      { (({ name := "glyph" } : Element).set "name" g.name).set "format" "2".toList with children := writtenKids pio g oe }) :=
    fun x hx hh => .child _ _ _ x hx hh
  have outl : ∀ x, x ∈ oe.children ++ g.components.vec.map (fun c => (componentXml c).node) → Holds c x → Holds c (Element.node
      { (({ name := "glyph" } : Element).set "name" g.name).set "format" "2".toList with children := writtenKids pio g oe }) := by
    intro x hx hh
    refine kid ({ oe with children := oe.children ++ g.components.vec.map fun c => (componentXml c).node } : Element).node ?_ (.child _ _ _ x hx hh)
    have : 1 ≤ (oe.children ++ g.components.vec.map fun c => (componentXml c).node).length := List.length_pos_of_mem hx
    unfold writtenKids
    rw [if_pos this]
    simp
  cases h with
  | name h => exact holds_attr (k := "name") (v := g.name) (insertAttr_other (insertAttr_self _ _ _) (by decide)) h
  | note n hn h =>
    refine kid (noteXml n).node ?_ (.child _ _ _ (.text n) (by simp [noteXml]) (.text n h))
    unfold writtenKids
    simp [hn]
  | point o k p s hog hk hp hoff hs h =>
    unfold outlineElem at ho
    rw [hog] at ho
    simp only [outlineXml] at ho
    rw [bind_eq_ok] at ho
    obtain ⟨els, hm, ho⟩ := ho
    cases ho
    obtain ⟨ke, hke, hx⟩ := forall₂_mem_left (mapM'_forall₂ hm) hk
    refine outl ke.node (List.mem_append_left _ (List.mem_map.2 ⟨ke, hke, rfl⟩)) ?_
    unfold contourXml at hx
    rw [bind_eq_ok] at hx
    obtain ⟨gc, hgc, hx⟩ := hx
    cases hx
    obtain ⟨q, hq, hqn⟩ := names_written k gc hgc p hp hoff
    exact .child _ _ _ (pointXml q).node (List.mem_map.2 ⟨q, hq, rfl⟩) (point_holds (hqn.trans hs) h)
  | anchor a s ha hs h =>
    refine kid (anchorXml a).node ?_ ?_
    · unfold writtenKids
      simp only [List.mem_append, List.mem_map]
      exact Or.inl (Or.inl (Or.inl (Or.inl (Or.inl (Or.inr ⟨a, ha, rfl⟩)))))
    · unfold anchorXml
      rw [hs]
      exact holds_attr (k := "name") (v := s) (insertAttr_self _ _ _) h
  | component k hk h =>
    refine outl (componentXml k).node (List.mem_append_right _ (List.mem_map.2 ⟨k, hk, rfl⟩)) ?_
    rcases h with h | ⟨s, hs, h⟩
    · exact holds_attr (k := "base") (v := k.base) (matrix_has (insertAttr_self _ _ _) (by decide)) h
    · unfold componentXml
      rw [hs]
      exact holds_attr (k := "identifier") (v := s) matrix_identifier h
  | image i hi h =>
    refine kid (imageXml i).node ?_ ?_
    · unfold writtenKids
      simp only [List.mem_append, List.mem_map]
      exact Or.inl (Or.inl (Or.inl (Or.inr ⟨i, hi, rfl⟩)))
    rcases h with h | ⟨s, hs, h⟩
    · exact holds_attr (k := "fileName") (v := i.filename) (matrix_has (insertAttr_self _ _ _) (by decide)) h
    · unfold imageXml
      rw [hs]
      exact holds_attr (k := "identifier") (v := s) matrix_identifier h
  | guideline l s hl hs h =>
    refine kid (guidelineXml l).node ?_ ?_
    · unfold writtenKids
      simp only [List.mem_append, List.mem_map]
      exact Or.inl (Or.inl (Or.inr ⟨l, hl, rfl⟩))
    unfold guidelineXml
    rcases hs with hs | hs
    · rw [hs]
      exact holds_attr (k := "name") (v := s) (setOpt_other (insertAttr_self _ _ _) (by decide)) h
    · rw [hs]
      exact holds_attr (k := "identifier") (v := s) (insertAttr_self _ _ _) h

/-- **C97.** A text of a glyph with a character that XML does not have, such as a control character —
its name, its note, the name of a point, the class of an anchor, a name, identifier or file name of the
rest — is written without complaint, and the file cannot be read. -/
theorem C97_control (mid : IOF → IOF → IOF) (pio : PlistIO D) (lay : Layout) (ped : Pedantry) (g : Glif PD D) (c : Char)
    (hc : HasChar c g) (hx : ¬ XmlChar c) (s : Str) (hw : writeText pio (io lay) g = .ok s) :
    readText (PD := PD) mid pio (io lay) ped s = .err .xmlParse := by
  unfold writeText at hw
  rw [bind_eq_ok] at hw
  obtain ⟨e, he, hw⟩ := hw
  cases hw
  unfold readText
  rw [show (io lay).parse (print lay e) = none from parse_print_not hx lay e (written_holds pio g hc e he)]
  rfl

/-- A bell in a name. -/
example (mid : IOF → IOF → IOF) (pio : PlistIO D) :
    ∃ s, writeText pio (io .indented) ({ name := ['a', Char.ofNat 7] } : Glif PD D) = .ok s ∧
      readText (PD := PD) mid pio (io .indented) {} s = .err .xmlParse :=
  ⟨_, rfl, C97_control mid pio .indented {} ({ name := ['a', Char.ofNat 7] } : Glif PD D) (Char.ofNat 7) (.name (by simp)) (by decide) _ rfl⟩

/-- A bell in the name of the second point of a contour. -/
example (mid : IOF → IOF → IOF) (pio : PlistIO D) :
    ∃ s, writeText pio (io .indented) ({ name := ['a'], outline := some [[Sample.pt .line 0 0,
        { Sample.pt .line 1 2 with name := some [Char.ofNat 7] }]] } : Glif Unit D) = .ok s ∧
      readText (PD := Unit) mid pio (io .indented) {} s = .err .xmlParse :=
  ⟨_, rfl, C97_control mid pio .indented {} ({ name := ['a'], outline := some [[Sample.pt .line 0 0,
        { Sample.pt .line 1 2 with name := some [Char.ofNat 7] }]] } : Glif Unit D) (Char.ofNat 7)
    (.point _ _ { Sample.pt .line 1 2 with name := some [Char.ofNat 7] } _ rfl (List.mem_singleton.2 rfl)
      (List.mem_cons_of_mem _ (List.mem_singleton.2 rfl)) (by decide) rfl (List.mem_singleton.2 rfl)) (by decide) _ rfl⟩

end GP
