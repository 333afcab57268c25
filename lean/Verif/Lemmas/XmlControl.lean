import Verif.Props.XmlText
/-!
# Characters that XML does not have make a text unreadable, wherever they are
-/
open Fl Fl.Text
namespace GP.XmlText
open Spec

theorem cutAt_mem {pat s a r : Str} {c : Char} (h : cutAt pat s = some (a, r)) (hc : c ∈ s) : c ∈ a ∨ c ∈ pat ∨ c ∈ r := by
  induction s generalizing a r with
  | nil => cases hc
  | cons d s ih =>
    unfold cutAt at h
    split at h
    · next hp =>
      cases h
      obtain ⟨t, ht⟩ := List.isPrefixOf_iff_prefix.1 hp
      rw [← ht, List.mem_append] at hc
      rw [← ht, List.drop_left]
      exact hc.elim (fun h => Or.inr (Or.inl h)) fun h => Or.inr (Or.inr h)
    · cases hcut : cutAt pat s with
      | none => rw [hcut] at h; cases h
      | some q =>
        rw [hcut] at h
        cases h
        rcases List.mem_cons.1 hc with rfl | hc
        · exact Or.inl (by simp)
        · exact (ih hcut hc).imp (List.mem_cons_of_mem _) id

theorem not_char_ne {c : Char} (hx : ¬ XmlChar c) {e : Char} (he : XmlChar e) : c ≠ e := fun h => hx (h ▸ he)

theorem not_char_space {c : Char} (hx : ¬ XmlChar c) : space c = false := by
  simp only [space, Bool.or_eq_false_iff, beq_eq_false_iff_ne]
  exact ⟨⟨⟨not_char_ne hx (by decide), not_char_ne hx (by decide)⟩, not_char_ne hx (by decide)⟩, not_char_ne hx (by decide)⟩

theorem not_char_allowed {c : Char} (hx : ¬ XmlChar c) : allowed c = false := by
  rw [← Bool.not_eq_true, allowed_iff]; exact hx

theorem not_char_name {c : Char} (hx : ¬ XmlChar c) : nameChar c = false := by
  rw [← Bool.not_eq_true]
  intro h
  apply hx
  rw [nameChar] at h
  simp only [Bool.or_eq_true, beq_iff_eq, Bool.and_eq_true, decide_eq_true_eq] at h
  rcases h with ((((h | h) | h) | h) | h) | h
  · refine (nameChar_iff c ?_).2
    simp only [Char.isAlphanum, Char.isAlpha, Char.isUpper, Char.isLower, Char.isDigit, Bool.or_eq_true, Bool.and_eq_true,
      decide_eq_true_eq, ge_iff_le] at h
    unfold NameChar
    simp only [Char.le_def]
    tauto
  · rw [h]; decide
  · rw [h]; decide
  · rw [h]; decide
  · rw [h]; decide
  · exact (allowed_iff c).1 h.2

theorem entity_mem {r : Str} {d c : Char} (h : entity r = some d) (hc : c ∈ r) : XmlChar c := by
  have digits : ∀ b ≤ 16, ∀ ds n, parseNat b ds = some n → c ∈ ds → XmlChar c := by
    intro b hb ds n hp hm
    unfold parseNat at hp
    split at hp
    · next hd =>
      have hd := List.all_eq_true.1 hd.2 c hm
      by_contra hx
      unfold isDigit digitVal at hd
      simp only [decide_eq_true_eq] at hd
      refine hx (Or.inr (Or.inr (Or.inr ?_)))
      split at hd
      · omega
      · split at hd
        · omega
        · split at hd <;> omega
    · cases hp
  unfold entity at h
  split at h
  · simp only [List.mem_cons, List.not_mem_nil, or_false] at hc; rcases hc with rfl | rfl <;> decide
  · simp only [List.mem_cons, List.not_mem_nil, or_false] at hc; rcases hc with rfl | rfl <;> decide
  · simp only [List.mem_cons, List.not_mem_nil, or_false] at hc; rcases hc with rfl | rfl | rfl <;> decide
  · simp only [List.mem_cons, List.not_mem_nil, or_false] at hc; rcases hc with rfl | rfl | rfl | rfl <;> decide
  · simp only [List.mem_cons, List.not_mem_nil, or_false] at hc; rcases hc with rfl | rfl | rfl | rfl <;> decide
  · next ds =>
    rcases List.mem_cons.1 hc with rfl | hc
    · decide
    · rcases List.mem_cons.1 hc with rfl | hc
      · decide
      · obtain ⟨n, hn, -⟩ := Option.bind_eq_some_iff.1 h
        exact digits 16 (by decide) _ _ hn hc
  · next ds _ =>
    rcases List.mem_cons.1 hc with rfl | hc
    · decide
    · obtain ⟨n, hn, -⟩ := Option.bind_eq_some_iff.1 h
      exact digits 10 (by decide) _ _ hn hc
  · cases h

theorem decode_mem {one : Char → Option Char} (ho : ∀ c, ¬ XmlChar c → one c = none) {ref : Option Str} {s t : Str} {c : Char}
    (h : decode one ref s = some t) (hc : c ∈ ref.getD [] ++ s) : XmlChar c := by
  by_contra hx
  induction s generalizing ref t with
  | nil =>
    cases ref with
    | none => simp at hc
    | some r => simp [decode] at h
  | cons d s ih =>
    cases ref with
    | none =>
      rw [decode] at h
      rw [Option.getD_none, List.nil_append] at hc
      by_cases hd : d = '&'
      · rw [if_pos hd] at h
        rcases List.mem_cons.1 hc with rfl | hc
        · exact not_char_ne hx (by decide) hd
        · exact ih h (by simpa using hc)
      · rw [if_neg hd] at h
        obtain ⟨c', h1, h⟩ := Option.bind_eq_some_iff.1 h
        obtain ⟨s', h2, h⟩ := Option.bind_eq_some_iff.1 h
        rcases List.mem_cons.1 hc with rfl | hc
        · rw [ho _ hx] at h1; cases h1
        · exact ih h2 (by simpa using hc)
    | some r =>
      rw [decode] at h
      rw [Option.getD_some, List.mem_append] at hc
      by_cases hd : d = ';'
      · rw [if_pos hd] at h
        obtain ⟨c', h1, h⟩ := Option.bind_eq_some_iff.1 h
        obtain ⟨s', h2, h⟩ := Option.bind_eq_some_iff.1 h
        rcases hc with hc | hc
        · exact hx (entity_mem h1 hc)
        · rcases List.mem_cons.1 hc with rfl | hc
          · exact not_char_ne hx (by decide) hd
          · exact ih h2 (by simpa using hc)
      · rw [if_neg hd] at h
        refine ih h ?_
        rw [Option.getD_some]
        simp only [List.mem_append, List.mem_cons, List.not_mem_nil, or_false] at hc ⊢
        tauto

theorem oneAttr_not {c : Char} (hx : ¬ XmlChar c) : oneAttr c = none := by
  unfold oneAttr
  rw [if_neg (not_char_ne hx (by decide)), not_char_space hx, not_char_allowed hx]
  rfl

theorem oneText_not {c : Char} (hx : ¬ XmlChar c) : oneText c = none := by
  unfold oneText
  rw [if_neg (not_char_ne hx (by decide)), not_char_allowed hx]
  rfl

theorem mem_dropWhile_of {p : Char → Bool} {s : Str} {c : Char} (hc : c ∈ s) (hp : p c = false) : c ∈ s.dropWhile p := by
  rw [← List.takeWhile_append_dropWhile (p := p) (l := s), List.mem_append] at hc
  rcases hc with hc | hc
  · have := List.all_eq_true.1 (List.all_takeWhile (p := p) (l := s)) c hc
    rw [this] at hp; cases hp
  · exact hc

theorem name_mem {s n r : Str} {c : Char} (hx : ¬ XmlChar c) (h : name s = some (n, r)) (hc : c ∈ s) : c ∈ r := by
  unfold name at h
  simp only at h
  split at h
  · cases h
  · cases h
    exact mem_dropWhile_of hc (not_char_name hx)

theorem value_mem {s v r : Str} {c : Char} (hx : ¬ XmlChar c) (h : value s = some (v, r)) (hc : c ∈ s) : c ∈ r := by
  have key : ∀ q, XmlChar q → ∀ t w, (do let (a, b) ← cutAt [q] t; some (← decode oneAttr none a, b)) = some (w, r) → c ∈ t → c ∈ r := by
    intro q hq t w h hc
    obtain ⟨⟨a, b⟩, h1, h⟩ := Option.bind_eq_some_iff.1 h
    obtain ⟨w', h2, h⟩ := Option.bind_eq_some_iff.1 h
    cases h
    rcases cutAt_mem h1 hc with hc | hc | hc
    · exact absurd (decode_mem (fun _ => oneAttr_not) h2 (by simpa using hc)) hx
    · exact absurd (List.mem_singleton.1 hc) (not_char_ne hx hq)
    · exact hc
  unfold value at h
  split at h
  · exact key '"' (by decide) _ _ h ((List.mem_cons.1 hc).resolve_left (not_char_ne hx (by decide)))
  · exact key '\'' (by decide) _ _ h ((List.mem_cons.1 hc).resolve_left (not_char_ne hx (by decide)))
  · cases h

theorem attrs_mem {fuel : Nat} {got as : List (String × Str)} {b : Bool} {s r : Str} {c : Char} (hx : ¬ XmlChar c)
    (h : attrs fuel got s = some (as, b, r)) (hc : c ∈ s) : c ∈ r := by
  induction fuel generalizing got s with
  | zero => cases h
  | succ fuel ih =>
    have hd := mem_dropWhile_of hc (not_char_space hx)
    unfold attrs at h
    split at h
    · next r' hr =>
      cases h
      rw [hr] at hd
      exact (List.mem_cons.1 hd).resolve_left (not_char_ne hx (by decide))
    · next r' hr =>
      cases h
      rw [hr] at hd
      exact (List.mem_cons.1 ((List.mem_cons.1 hd).resolve_left (not_char_ne hx (by decide)))).resolve_left (not_char_ne hx (by decide))
    · split at h
      · cases h
      · obtain ⟨⟨k, r1⟩, h1, h⟩ := Option.bind_eq_some_iff.1 h
        have m1 := mem_dropWhile_of (name_mem hx h1 hd) (not_char_space hx)
        simp only at h
        split at h
        · next r2 hr2 =>
          rw [hr2] at m1
          have m2 := mem_dropWhile_of ((List.mem_cons.1 m1).resolve_left (not_char_ne hx (by decide))) (not_char_space hx)
          obtain ⟨⟨v, r3⟩, h3, h⟩ := Option.bind_eq_some_iff.1 h
          simp only at h
          split at h
          · cases h
          · exact ih h (value_mem hx h3 m2)
        · cases h

theorem next_mem {s r : Str} {t : Tok} {c : Char} (hx : ¬ XmlChar c) (h : next s = some (t, r)) (hc : c ∈ s) : c ∈ r := by
  have strip : ∀ {d : Char} {l : Str}, c ∈ d :: l → XmlChar d → c ∈ l := fun hm hd =>
    (List.mem_cons.1 hm).resolve_left (not_char_ne hx hd)
  have clean : ∀ {a : Str}, a.all allowed = true → c ∉ a := fun ha hm => by
    have := List.all_eq_true.1 ha c hm
    rw [not_char_allowed hx] at this; cases this
  unfold next at h
  split at h
  · cases h
  · obtain ⟨⟨a, b⟩, h1, h⟩ := Option.bind_eq_some_iff.1 h
    simp only at h
    split at h
    · next r' =>
      split at h
      · next ha =>
        cases h
        have hc := strip (strip (strip (strip hc (by decide)) (by decide)) (by decide)) (by decide)
        rcases cutAt_mem h1 hc with hc | hc | hc
        · exact absurd hc (clean ha)
        · simp only [List.mem_cons, List.not_mem_nil, or_false, or_self] at hc
          exact absurd hc (not_char_ne hx (by decide))
        · exact strip hc (by decide)
      · cases h
    · cases h
  · obtain ⟨⟨a, b⟩, h1, h⟩ := Option.bind_eq_some_iff.1 h
    simp only at h
    split at h
    · next ha =>
      cases h
      have hc := strip (strip (strip (strip (strip (strip (strip (strip (strip hc (by decide)) (by decide)) (by decide)) (by decide)) (by decide))
        (by decide)) (by decide)) (by decide)) (by decide)
      rcases cutAt_mem h1 hc with hc | hc | hc
      · exact absurd hc (clean ha)
      · simp only [List.mem_cons, List.not_mem_nil, or_false] at hc
        rcases hc with hc | hc | hc <;> exact absurd hc (not_char_ne hx (by decide))
      · exact hc
    · cases h
  · obtain ⟨⟨a, b⟩, h1, h⟩ := Option.bind_eq_some_iff.1 h
    simp only at h
    split at h
    · next ha =>
      cases h
      have hc := strip (strip hc (by decide)) (by decide)
      rcases cutAt_mem h1 hc with hc | hc | hc
      · exact absurd hc (clean ha)
      · simp only [List.mem_cons, List.not_mem_nil, or_false] at hc
        rcases hc with hc | hc <;> exact absurd hc (not_char_ne hx (by decide))
      · exact hc
    · cases h
  · obtain ⟨⟨a, b⟩, h1, h⟩ := Option.bind_eq_some_iff.1 h
    have hc := mem_dropWhile_of (name_mem hx h1 (strip (strip hc (by decide)) (by decide))) (not_char_space hx)
    simp only at h
    split at h
    · next r' hr =>
      cases h
      rw [hr] at hc
      exact strip hc (by decide)
    · cases h
  · obtain ⟨⟨a, b⟩, h1, h⟩ := Option.bind_eq_some_iff.1 h
    obtain ⟨⟨as, e, r'⟩, h2, h⟩ := Option.bind_eq_some_iff.1 h
    cases h
    exact attrs_mem hx h2 (name_mem hx h1 (strip hc (by decide)))
  · rename_i d r' _ _ _ _ _
    obtain ⟨t', h1, h⟩ := Option.bind_eq_some_iff.1 h
    cases h
    rw [← List.takeWhile_append_dropWhile (p := (· != '<')) (l := d :: r')] at hc
    rcases List.mem_append.1 hc with hc | hc
    · exact absurd (decode_mem (fun _ => oneText_not) h1 (by simpa using hc)) hx
    · exact hc

theorem root_mem {c : Char} (hx : ¬ XmlChar c) : ∀ (n : Nat) (st : List Frame) (s : Str) (e : Element) (r : Str), s.length ≤ n →
    root st s = some (e, r) → c ∈ s → c ∈ r := by
  intro n
  induction n with
  | zero =>
    intro st s e r hn _ hc
    cases s with
    | nil => cases hc
    | cons => simp at hn
  | succ n ih =>
    intro st s e r hn h hc
    rw [root] at h
    cases hnext : next s with
    | none => rw [hnext] at h; cases h
    | some q =>
      obtain ⟨t, r'⟩ := q
      rw [hnext] at h
      simp only at h
      have hc' := next_mem hx hnext hc
      split at h
      · next hl =>
        have hn' : r'.length ≤ n := by omega
        split at h
        · cases h; exact hc'
        · exact ih _ _ _ _ hn' h hc'
        · exact ih _ _ _ _ hn' h hc'
        · cases h
        · split at h
          · cases h; exact hc'
          · cases h
        · split at h
          · exact ih _ _ _ _ hn' h hc'
          · cases h
        · split at h
          · cases h
          · exact ih _ _ _ _ hn' h hc'
        · split at h <;> exact ih _ _ _ _ hn' h hc'
      · cases h

theorem nothing_mem {c : Char} (hx : ¬ XmlChar c) : ∀ (n : Nat) (s : Str), s.length ≤ n → nothing s = true → c ∉ s := by
  intro n
  induction n with
  | zero =>
    intro s hn _ hc
    cases s with
    | nil => cases hc
    | cons => simp at hn
  | succ n ih =>
    intro s hn h hc
    rw [nothing] at h
    split at h
    · next hs => rw [hs] at hc; cases hc
    · split at h
      · next k r hnext =>
        split at h
        · exact ih r (by omega) (by rw [Bool.and_eq_true] at h; exact h.2) (next_mem hx hnext hc)
        · cases h
      · cases h

theorem lines_mem {c : Char} (hx : ¬ XmlChar c) (s : Str) (hc : c ∈ s) : c ∈ lines s := by
  have hr := not_char_ne hx (e := '\r') (by decide)
  have hn := not_char_ne hx (e := '\n') (by decide)
  fun_induction lines s with
  | case1 => cases hc
  | case2 s ih => exact List.mem_cons_of_mem _ (ih ((List.mem_cons.1 ((List.mem_cons.1 hc).resolve_left hr)).resolve_left hn))
  | case3 s _ ih => exact List.mem_cons_of_mem _ (ih ((List.mem_cons.1 hc).resolve_left hr))
  | case4 d s _ _ ih =>
    rcases List.mem_cons.1 hc with rfl | hc
    · exact List.mem_cons_self
    · exact List.mem_cons_of_mem _ (ih hc)

/-- A text with a character that XML does not have is not read. -/
theorem parse_not {c : Char} (hx : ¬ XmlChar c) (s : Str) (hc : c ∈ s) : parse s = none := by
  cases h : parse s with
  | none => rfl
  | some e =>
    unfold parse at h
    obtain ⟨⟨e', r⟩, h1, h⟩ := Option.bind_eq_some_iff.1 h
    simp only at h
    split at h
    · next hno => exact absurd (root_mem hx _ _ _ _ _ (Nat.le_refl _) h1 (lines_mem hx s hc)) (nothing_mem hx _ _ (Nat.le_refl _) hno)
    · cases h

/-- The character is in a text or in the value of an attribute. -/
inductive Holds (c : Char) : Node → Prop
  | attr (n as cs) (a : String × Str) (ha : a ∈ as) (hc : c ∈ a.2) : Holds c (.elem n as cs)
  | child (n as cs x) (hm : x ∈ cs) (h : Holds c x) : Holds c (.elem n as cs)
  | text (s) (hc : c ∈ s) : Holds c (.text s)

theorem printNodes_mem {c : Char} (lay : Layout) (d : Nat) (done cs : List Node) (x : Node) (hm : x ∈ cs)
    (h : ∀ d, c ∈ printNode lay d x) : c ∈ printNodes lay d done cs := by
  induction cs generalizing done with
  | nil => cases hm
  | cons y cs ih =>
    rw [printNodes_cons]
    rcases List.mem_cons.1 hm with rfl | hm
    · simp [h d]
    · simp [ih _ hm]

theorem escAttr_not {c : Char} (hx : ¬ XmlChar c) : escAttr c = [c] := by
  unfold escAttr
  rw [if_neg (not_char_ne hx (by decide)), if_neg (not_char_ne hx (by decide)), if_neg (not_char_ne hx (by decide)),
    if_neg (not_char_ne hx (by decide)), if_neg (not_char_ne hx (by decide)), if_neg (not_char_ne hx (by decide)),
    if_neg (not_char_ne hx (by decide))]

theorem escText_not {c : Char} (hx : ¬ XmlChar c) : escText c = [c] := by
  unfold escText
  rw [if_neg (not_char_ne hx (by decide)), if_neg (not_char_ne hx (by decide)), if_neg (not_char_ne hx (by decide))]

theorem printAttr_not {c : Char} (hx : ¬ XmlChar c) {a : String × Str} (hc : c ∈ a.2) : c ∈ printAttr a := by
  have : c ∈ a.2.flatMap escAttr := List.mem_flatMap.2 ⟨c, hc, by rw [escAttr_not hx]; simp⟩
  unfold printAttr
  exact List.mem_append_left _ (List.mem_append_right _ (List.mem_cons_of_mem _ (List.mem_cons_of_mem _ this)))

theorem mem_tag {c : Char} {n : Str} {s t : Str} (h : c ∈ s) : c ∈ '<' :: n ++ s ++ t := by simp [h]

theorem mem_body {c : Char} {n s t u v : Str} (h : c ∈ s) : c ∈ n ++ ('>' :: s ++ t ++ u ++ v) := by simp [h]

theorem print_holds {c : Char} (hx : ¬ XmlChar c) (lay : Layout) {x : Node} (h : Holds c x) : ∀ d, c ∈ printNode lay d x := by
  induction h with
  | attr n as cs a ha hc =>
    intro d
    rw [printNode_elem]
    exact mem_tag (List.mem_flatMap.2 ⟨a, ha, printAttr_not hx hc⟩)
  | child n as cs x hm h ih =>
    intro d
    have hne : ¬ (cs.isEmpty = true) := by cases cs with
      | nil => cases hm
      | cons => nofun
    rw [printNode_elem, if_neg hne]
    exact mem_body (printNodes_mem lay (d + 1) [] cs x hm ih)
  | text s hc =>
    intro d
    rw [printNode_text]
    exact List.mem_flatMap.2 ⟨c, hc, by rw [escText_not hx]; simp⟩

/-- A document with such a character cannot be read again. -/
theorem parse_print_not {c : Char} (hx : ¬ XmlChar c) (lay : Layout) (e : Element) (h : Holds c e.node) : parse (print lay e) = none :=
  parse_not hx _ (by
    unfold print
    have := print_holds hx lay h 0
    simp [this])

end GP.XmlText
