import Verif.Props.Spelling
import Verif.Props.File
/-!
# What is parsed is a spelling (C140)
-/
open Fl Fl.Text
namespace GP
open Spec XmlText
variable {PD D : Type}

/-! ## Characters and references -/

theorem entity_refers {e : Str} {c : Char} (h : entity e = some c) : CharRef c ('&' :: e ++ [';']) := by
  have hnum : ∀ {b : Nat} {ds : Str}, b ≤ 16 → ((parseNat b ds).bind fun n => (charFromU32 n).filter allowed) = some c →
      Numeral b ds c.toNat ∧ XmlChar c := by
    intro b ds hb h
    obtain ⟨n, h1, h2⟩ := Option.bind_eq_some_iff.1 h
    obtain ⟨h3, h4⟩ := Option.filter_eq_some_iff.1 h2
    rw [(charFromU32_iff n c).1 h3]
    exact ⟨(numeral_iff hb ds n).2 h1, (allowed_iff c).1 h4⟩
  unfold entity at h
  split at h
  · cases h; exact .lt
  · cases h; exact .gt
  · cases h; exact .amp
  · cases h; exact .quot
  · cases h; exact .apos
  · obtain ⟨h1, h2⟩ := hnum (by decide) h
    exact .hex h1 h2
  · obtain ⟨h1, h2⟩ := hnum (by decide) h
    exact .dec h1 h2
  · cases h

theorem decode_ref_back {one : Char → Option Char} (s : Str) : ∀ {r v : Str}, decode one (some r) s = some v →
    ∃ e c s' v', s = e ++ ';' :: s' ∧ entity (r ++ e) = some c ∧ v = c :: v' ∧ decode one none s' = some v' := by
  induction s with
  | nil => intro r v h; rw [decode] at h; cases h
  | cons d s ih =>
    intro r v h
    rw [decode] at h
    split at h
    · next hd =>
      obtain ⟨c, h1, h⟩ := Option.bind_eq_some_iff.1 h
      obtain ⟨v', h2, h⟩ := Option.bind_eq_some_iff.1 h
      cases h
      exact ⟨[], c, s, v', by rw [hd]; rfl, by rw [List.append_nil]; exact h1, rfl, h2⟩
    · obtain ⟨e, c, s', v', rfl, h1, h2, h3⟩ := ih h
      exact ⟨d :: e, c, s', v', rfl, by simpa using h1, h2, h3⟩

theorem decode_back {one : Char → Option Char} {stands : Char → Char → Prop} (n : Nat) : ∀ {s v : Str}, s.length ≤ n →
    (∀ d ∈ s, ∀ c, d ≠ '&' → one d = some c → stands c d) → decode one none s = some v → SpellsText stands v s := by
  induction n with
  | zero =>
    intro s v hl _ h
    rw [List.length_eq_zero_iff.1 (by omega : s.length = 0)] at h ⊢
    rw [decode] at h; cases h; exact .nil
  | succ n ih =>
    intro s v hl h1 h
    cases s with
    | nil => rw [decode] at h; cases h; exact .nil
    | cons d s =>
      rw [decode] at h
      split at h
      · next hd =>
        obtain ⟨e, c, s', v', rfl, h2, rfl, h3⟩ := decode_ref_back s h
        have := SpellsText.ref (entity_refers (by simpa using h2)) (ih (by simp at hl ⊢; omega) (fun d hd => h1 d (by simp [hd])) h3)
        rw [hd]
        simpa using this
      · next hd =>
        obtain ⟨c, h2, h⟩ := Option.bind_eq_some_iff.1 h
        obtain ⟨v', h3, h⟩ := Option.bind_eq_some_iff.1 h
        cases h
        exact .char (h1 d (by simp) c hd h2) (ih (by simpa using hl) (fun d hd => h1 d (by simp [hd])) h3)

theorem oneAttr_stands {q c d : Char} (hq : d ≠ q) (hr : d ≠ '\r') (ha : d ≠ '&') (h : oneAttr d = some c) : InQuotes q c d := by
  unfold oneAttr at h
  split_ifs at h with h1 h2 h3
  · cases h
    simp only [space, Bool.or_eq_true, beq_iff_eq] at h2
    rcases h2 with ((rfl | rfl) | rfl) | rfl
    · exact ⟨by decide, by decide, by decide, by decide, hq, Or.inr ⟨by decide, by decide, rfl⟩⟩
    · exact ⟨by decide, by decide, by decide, by decide, hq, Or.inl ⟨Or.inl rfl, rfl⟩⟩
    · exact ⟨by decide, by decide, by decide, by decide, hq, Or.inl ⟨Or.inr rfl, rfl⟩⟩
    · exact absurd rfl hr
  · cases h
    refine ⟨(allowed_iff _).1 h3, h1, ha, hr, hq, Or.inr ⟨?_, ?_, rfl⟩⟩ <;> (rintro rfl; exact h2 rfl)

theorem oneText_stands {c d : Char} (hr : d ≠ '\r') (ha : d ≠ '&') (h : oneText d = some c) : InText c d := by
  unfold oneText at h
  split_ifs at h with h1 h2
  cases h
  exact ⟨(allowed_iff _).1 h2, h1, ha, hr, rfl⟩

theorem infix_cons {pat : Str} {c : Char} {s : Str} (h : pat <:+: c :: s) : pat <+: c :: s ∨ pat <:+: s :=
  List.infix_cons_iff.1 h

theorem cutAt_back {pat : Str} (hp : pat ≠ []) (s : Str) : ∀ {a r : Str}, cutAt pat s = some (a, r) → s = a ++ pat ++ r ∧ ¬ pat <:+: a ++ pat.dropLast := by
  have hself : ¬ pat <:+: [] ++ pat.dropLast := fun h => by
    have h1 := h.length_le
    have h2 := List.length_pos_iff.2 hp
    simp at h1; omega
  induction s with
  | nil =>
    intro a r h
    rw [cutAt] at h
    split at h
    · next h1 => exact absurd (List.prefix_nil.1 (List.isPrefixOf_iff_prefix.1 h1)) hp
    · cases h
  | cons c s ih =>
    intro a r h
    rw [cutAt] at h
    split at h
    · next h1 =>
      cases h
      obtain ⟨t, ht⟩ := List.isPrefixOf_iff_prefix.1 h1
      exact ⟨by rw [← ht]; simp, hself⟩
    · next h1 =>
      obtain ⟨⟨a', r'⟩, h2, h3⟩ := Option.map_eq_some_iff.1 h
      cases h3
      obtain ⟨rfl, h4⟩ := ih h2
      refine ⟨rfl, fun h5 => ?_⟩
      rcases infix_cons h5 with h6 | h6
      · refine h1 (List.isPrefixOf_iff_prefix.2 (h6.trans ⟨pat.getLast hp :: r', ?_⟩))
        have := List.dropLast_append_getLast hp
        show c :: (a' ++ pat.dropLast ++ pat.getLast hp :: r') = c :: (a' ++ pat ++ r')
        rw [List.append_assoc, List.append_assoc, show pat.dropLast ++ pat.getLast hp :: r' = pat ++ r' by rw [← List.singleton_append, ← List.append_assoc, this]]
      · exact h4 h6

/-! ## Tags -/

theorem nameChar_back {c : Char} (h : nameChar c = true) : NameChar c := by
  simp only [nameChar, Bool.or_eq_true, beq_iff_eq, Bool.and_eq_true, decide_eq_true_eq, allowed_iff] at h
  unfold NameChar
  rcases h with ((((h | rfl) | rfl) | rfl) | rfl) | h
  · simp only [Char.isAlphanum, Char.isAlpha, Char.isUpper, Char.isLower, Char.isDigit, Bool.or_eq_true, Bool.and_eq_true, decide_eq_true_eq] at h
    rcases h with (h | h) | h
    · exact Or.inr (Or.inl h)
    · exact Or.inl h
    · exact Or.inr (Or.inr (Or.inl h))
  · simp
  · simp
  · simp
  · simp
  · exact Or.inr (Or.inr (Or.inr (Or.inr h)))

theorem name_back {s n r : Str} (h : name s = some (n, r)) : s = n ++ r ∧ XmlName (String.ofList n) := by
  unfold name at h
  simp only at h
  split at h
  · cases h
  · next hn =>
    cases h
    refine ⟨List.takeWhile_append_dropWhile.symm, ?_, ?_⟩
    · simpa using hn
    · intro c hc
      rw [String.toList_ofList] at hc
      exact nameChar_back (by simpa using List.all_eq_true.1 List.all_takeWhile c hc)

theorem value_back {s v r : Str} (hr : '\r' ∉ s) (h : value s = some (v, r)) :
    ∃ q s', (q = '"' ∨ q = '\'') ∧ s = q :: s' ++ q :: r ∧ SpellsText (InQuotes q) v s' := by
  have hgo : ∀ q t, '\r' ∉ t → (do let (v, r) ← cutAt [q] t; some (← decode oneAttr none v, r)) = some (v, r) →
      ∃ s', t = s' ++ q :: r ∧ SpellsText (InQuotes q) v s' := by
    intro q t ht h
    obtain ⟨⟨s', r'⟩, h1, h⟩ := Option.bind_eq_some_iff.1 h
    obtain ⟨v', h2, h⟩ := Option.bind_eq_some_iff.1 h
    cases h
    obtain ⟨rfl, h3⟩ := cutAt_back (by simp) t h1
    refine ⟨s', by simp, decode_back _ (Nat.le_refl _) (fun d hd c ha h => oneAttr_stands ?_ ?_ ha h) h2⟩
    · rintro rfl
      obtain ⟨x, y, hxy⟩ := List.append_of_mem hd
      exact h3 ⟨x, y, by simp [hxy]⟩
    · rintro rfl
      exact ht (by simp [hd])
  unfold value at h
  split at h
  · obtain ⟨s', rfl, h1⟩ := hgo _ _ (fun hm => hr (by simp [hm])) h
    exact ⟨'"', s', Or.inl rfl, rfl, h1⟩
  · obtain ⟨s', rfl, h1⟩ := hgo _ _ (fun hm => hr (by simp [hm])) h
    exact ⟨'\'', s', Or.inr rfl, rfl, h1⟩
  · cases h

theorem white_take {s : Str} (h : '\r' ∉ s) : White (s.takeWhile space) := by
  intro c hc
  have h1 := List.all_eq_true.1 List.all_takeWhile c hc
  have h2 : c ∈ s := List.takeWhile_subset _ hc
  simp only [space, Bool.or_eq_true, beq_iff_eq] at h1
  rcases h1 with ((h1 | h1) | h1) | h1
  · exact Or.inl h1
  · exact Or.inr (Or.inl h1)
  · exact Or.inr (Or.inr h1)
  · rw [h1] at h2; exact absurd h2 h

theorem space_split (s : Str) : s = s.takeWhile space ++ s.dropWhile space := List.takeWhile_append_dropWhile.symm

theorem attrs_back (fuel : Nat) : ∀ {got as : List (String × Str)} {s r : Str} {e : Bool}, '\r' ∉ s → (got.map (·.1)).Nodup →
    attrs fuel got s = some (as, e, r) →
    ∃ as' s', as = got ++ as' ∧ (as.map (·.1)).Nodup ∧ SpellsAttrs as' s' ∧ s = s' ++ ((if e then ['/', '>'] else ['>']) ++ r) := by
  induction fuel with
  | zero => intro got as s r e _ _ h; rw [attrs] at h; cases h
  | succ fuel ih =>
    intro got as s r e hr hn h
    rw [attrs] at h
    split at h
    · next r' h1 =>
      cases h
      exact ⟨[], s.takeWhile space, by simp, hn, .nil (white_take hr), by rw [space_split s, h1]; simp [← h1]⟩
    · next r' h1 =>
      cases h
      exact ⟨[], s.takeWhile space, by simp, hn, .nil (white_take hr), by rw [space_split s, h1]; simp [← h1]⟩
    · split at h
      · cases h
      · next hw =>
        obtain ⟨⟨k, r1⟩, h1, h⟩ := Option.bind_eq_some_iff.1 h
        simp only at h
        split at h
        · next r2 h2 =>
          obtain ⟨⟨v, r3⟩, h3, h⟩ := Option.bind_eq_some_iff.1 h
          simp only at h
          split at h
          · cases h
          · next hg =>
            obtain ⟨hk, hkn⟩ := name_back h1
            have e1 := space_split s
            have e2 := space_split r1
            have e3 := space_split r2
            rw [hk] at e1
            rw [h2] at e2
            have hr1 : '\r' ∉ r1 := fun hm => hr (by rw [e1]; simp [hm])
            have hr2 : '\r' ∉ r2 := fun hm => hr1 (by rw [e2]; simp [hm])
            have hr2' : '\r' ∉ r2.dropWhile space := fun hm => hr2 ((List.dropWhile_suffix _).subset hm)
            obtain ⟨q, s', hq, e4, hs'⟩ := value_back hr2' h3
            have hr3 : '\r' ∉ r3 := fun hm => hr2' (by rw [e4]; simp [hm])
            have hn' : ((got ++ [(String.ofList k, v)]).map (·.1)).Nodup := by
              rw [List.map_append, List.nodup_append]
              refine ⟨hn, by simp, ?_⟩
              rintro a ha b hb rfl
              obtain ⟨x, hx, rfl⟩ := List.mem_map.1 ha
              simp only [List.map_cons, List.map_nil, List.mem_singleton] at hb
              exact hg (List.any_eq_true.2 ⟨x, hx, by simp [hb]⟩)
            obtain ⟨as', t, rfl, h5, h6, h7⟩ := ih hr3 hn' h
            refine ⟨(String.ofList k, v) :: as', _, by simp, h5, .cons (.mk (w := s.takeWhile space) (w1 := r1.takeWhile space)
              (w2 := r2.takeWhile space) hkn (by simpa using hw) (white_take hr) (white_take hr1) (white_take hr2) hq hs') h6, ?_⟩
            rw [h7] at e4
            rw [e4] at e3
            rw [String.toList_ofList]
            calc s = _ := e1
              _ = s.takeWhile space ++ (k ++ (r1.takeWhile space ++ '=' :: (r2.takeWhile space ++
                    (q :: s' ++ q :: (t ++ ((if e then ['/', '>'] else ['>']) ++ r)))))) := by rw [← e3, ← e2]
              _ = _ := by simp
        · cases h

/-! ## Nodes -/

/-- What has been found at the beginning of a text. -/
def Found (s : Str) : Tok → Str → Prop
  | .start n as e, r => XmlName n ∧ (as.map (·.1)).Nodup ∧ ∃ sa, SpellsAttrs as sa ∧ s = '<' :: (n.toList ++ (sa ++ ((if e then ['/', '>'] else ['>']) ++ r)))
  | .stop n, r => XmlName n ∧ ∃ w, White w ∧ s = '<' :: '/' :: (n.toList ++ (w ++ '>' :: r))
  | .node (.text v), r => ∃ w, SpellsText InText v w ∧ s = w ++ r ∧ s.head? ≠ some '<' ∧ (r = [] ∨ r.head? = some '<')
  | .node (.elem ..), _ => False
  | .node c, r => ∃ w, Spells c w ∧ s = w ++ r

theorem plain_back {c : Str} (h : c.all allowed = true) (hr : '\r' ∉ c) : PlainText c := fun d hd =>
  ⟨(allowed_iff d).1 (List.all_eq_true.1 h d hd), fun he => hr (he ▸ hd)⟩

theorem next_back {s r : Str} {t : Tok} (hr : '\r' ∉ s) (h : XmlText.next s = some (t, r)) : Found s t r := by
  unfold XmlText.next at h
  split at h
  · cases h
  · obtain ⟨⟨c, r1⟩, h1, h0⟩ := Option.bind_eq_some_iff.1 h
    clear h
    obtain ⟨h2, h3⟩ := cutAt_back (by simp) _ h1
    subst h2
    simp only at h0
    split at h0
    · split at h0
      · next ha =>
        cases h0
        exact ⟨_, .comment (plain_back ha fun hm => hr (by simp [hm])) h3, by simp⟩
      · cases h0
    · cases h0
  · obtain ⟨⟨c, r1⟩, h1, h0⟩ := Option.bind_eq_some_iff.1 h
    clear h
    obtain ⟨h2, h3⟩ := cutAt_back (by simp) _ h1
    subst h2
    simp only at h0
    split at h0
    · next ha =>
      cases h0
      exact ⟨_, .cdata (plain_back ha fun hm => hr (by simp [hm])) (fun h => h3 (h.trans (List.prefix_append ..).isInfix)), by simp⟩
    · cases h0
  · obtain ⟨⟨c, r1⟩, h1, h0⟩ := Option.bind_eq_some_iff.1 h
    clear h
    obtain ⟨h2, h3⟩ := cutAt_back (by simp) _ h1
    subst h2
    simp only at h0
    split at h0
    · next ha =>
      cases h0
      exact ⟨_, .pi (plain_back ha fun hm => hr (by simp [hm])) (fun h => h3 (h.trans (List.prefix_append ..).isInfix)), by simp⟩
    · cases h0
  · obtain ⟨⟨n, r1⟩, h1, h0⟩ := Option.bind_eq_some_iff.1 h
    clear h
    obtain ⟨h2, h3⟩ := name_back h1
    subst h2
    simp only at h0
    split at h0
    · next r2 h4 =>
      cases h0
      refine ⟨h3, r1.takeWhile space, white_take fun hm => hr (by simp [hm]), ?_⟩
      rw [← h4, ← space_split, String.toList_ofList]
    · cases h0
  · obtain ⟨⟨n, r1⟩, h1, h0⟩ := Option.bind_eq_some_iff.1 h
    clear h
    obtain ⟨h2, h3⟩ := name_back h1
    subst h2
    obtain ⟨⟨as, e, r2⟩, h4, h0⟩ := Option.bind_eq_some_iff.1 h0
    cases h0
    obtain ⟨as', sa, h5, h6, h7, h8⟩ := attrs_back _ (fun hm => hr (by simp [hm])) (by simp) h4
    rw [List.nil_append] at h5
    subst h5
    exact ⟨h3, h6, sa, h7, by rw [h8, String.toList_ofList]⟩
  · next c r1 _ _ _ _ hc =>
    obtain ⟨v, h1, h0⟩ := Option.bind_eq_some_iff.1 h
    cases h0
    refine ⟨(c :: r1).takeWhile (· != '<'), decode_back _ (Nat.le_refl _)
      (fun d hd c ha h => oneText_stands (fun he => hr (he ▸ List.takeWhile_subset _ hd)) ha h) h1,
      List.takeWhile_append_dropWhile.symm, ?_, ?_⟩
    · simp only [List.head?_cons, ne_eq, Option.some.injEq]
      exact hc
    · cases hd : (c :: r1).dropWhile (· != '<') with
      | nil => exact Or.inl rfl
      | cons x l =>
        right
        have := List.head?_dropWhile_not (· != '<') (c :: r1)
        rw [hd] at this
        simpa using this

theorem spells_append {stands : Char → Char → Prop} {v s v' s' : Str} (h : SpellsText stands v s) (h' : SpellsText stands v' s') :
    SpellsText stands (v ++ v') (s ++ s') := by
  induction h with
  | nil => exact h'
  | char hc _ ih => exact .char hc ih
  | ref hr _ ih => rw [List.append_assoc]; exact .ref hr ih

theorem gap_append {w w' : Str} (h : Gap w) (h' : Gap w') : Gap (w ++ w') := by
  obtain ⟨v, hb, hs⟩ := h
  obtain ⟨v', hb', hs'⟩ := h'
  exact ⟨v ++ v', fun c hc => (List.mem_append.1 hc).elim (hb c) (hb' c), spells_append hs hs'⟩

theorem kept_blank {v : Str} (h : XmlText.kept (.text v) = false) : Blank v := by
  simp only [XmlText.kept, Bool.not_eq_false', List.all_eq_true] at h
  intro c hc
  have := h c hc
  simp only [space, Bool.or_eq_true, beq_iff_eq] at this
  tauto

theorem joined_gap {ps : List (Node × Str)} {w s : Str} (hw : Gap w) (h : Joined True ps s) : Joined False ps (w ++ s) := by
  cases h with
  | @nil _ w' _ h => rw [h trivial, List.append_nil]; exact .nil hw (fun h => h.elim)
  | @cons _ w' c s ps r _ h2 h3 h4 =>
    rw [h2 (Or.inl trivial), List.nil_append, ← List.append_assoc]
    exact .cons hw (fun h => h.elim (fun h => h.elim) fun h => absurd ⟨trivial, h⟩ h3) (fun h => h.1) h4

theorem joined_cons {b : Prop} {c : Node} {s r : Str} {ps : List (Node × Str)} (hc : ¬ IsText c) (h : Joined False ps r) :
    Joined b ((c, s) :: ps) (s ++ r) := by
  have h' : Joined (IsText c) ps r := by rw [show IsText c = False from propext ⟨hc, fun h => h.elim⟩]; exact h
  have := Joined.cons (b := b) (w := []) (s := s) gap_nil (fun _ => rfl) (fun h => hc h.2) h'
  simpa using this

/-- What is left when an element has been closed. -/
def Closed (f : Frame) (cs : List Node) : List Frame → Str → Element → Str → Prop
  | [], r1, e, r => e = ⟨f.name, f.attrs, f.children ++ cs⟩ ∧ r1 = r
  | g :: st, r1, e, r => root (g.push (.elem f.name f.attrs (f.children ++ cs)) :: st) r1 = some (e, r)

theorem closed_push {f : Frame} {c : Node} {cs : List Node} {st : List Frame} {r1 r : Str} {e : Element} (h : Closed (f.push c) cs st r1 e r) :
    Closed f (c :: cs) st r1 e r := by
  cases st <;> simpa [Closed, Frame.push] using h

theorem root_token {st : List Frame} {s r : Str} {e : Element} (h : root st s = some (e, r)) :
    ∃ t r0, XmlText.next s = some (t, r0) ∧ r0.length < s.length := by
  rw [root] at h
  split at h
  · cases h
  · next t r0 hn =>
    split at h
    · next hl => exact ⟨t, r0, hn, hl⟩
    · cases h

theorem frame_back (n : Nat) : ∀ {f : Frame} {st : List Frame} {s r : Str} {e : Element}, s.length ≤ n → '\r' ∉ s → root (f :: st) s = some (e, r) →
    ∀ b : Prop, (b → s.head? = some '<') → ∃ ps x w r1, s = x ++ '<' :: '/' :: (f.name.toList ++ (w ++ '>' :: r1)) ∧ XmlName f.name ∧ White w ∧
      (∀ p ∈ ps, Spells p.1 p.2) ∧ Joined b ps x ∧ Closed f (ps.map (·.1)) st r1 e r := by
  induction n with
  | zero =>
    intro f st s r e hl _ h b _
    obtain ⟨t, r0, _, h2⟩ := root_token h
    omega
  | succ n ih =>
    intro f st s r e hl hr h b hb
    obtain ⟨t, r0, hn, hl0⟩ := root_token h
    have hf := next_back hr hn
    rw [root_eq _ _ _ _ hn hl0] at h
    cases t with
    | stop m =>
      obtain ⟨hm, w, hw, hs⟩ := hf
      have hmf : m = f.name ∧ Closed f [] st r0 e r := by
        cases st with
        | nil =>
          simp only at h
          split at h
          · next hm => cases h; exact ⟨hm, by simp [Closed]⟩
          · cases h
        | cons g st =>
          simp only at h
          split at h
          · next hm => exact ⟨hm, by simpa [Closed] using h⟩
          · cases h
      obtain ⟨rfl, hc⟩ := hmf
      exact ⟨[], [], w, r0, hs, hm, hw, by simp, .nil gap_nil (fun _ => rfl), hc⟩
    | start m as z =>
      obtain ⟨hm, ha, sa, hsa, hs⟩ := hf
      cases z with
      | true =>
        simp only at h
        obtain ⟨ps, x, w, r1, h1, h2, h3, h4, h5, h6⟩ := ih (by omega) (fun hm => hr (by rw [hs]; simp [hm])) h False (fun h => h.elim)
        refine ⟨(.elem m as [], '<' :: m.toList ++ sa ++ ['/', '>']) :: ps, _, w, r1, ?_, h2, h3, ?_, joined_cons (fun h => h) h5, closed_push h6⟩
        · rw [hs, h1]; simp [Frame.push]
        · intro p hp
          rcases List.mem_cons.1 hp with rfl | hp
          · exact .empty hm ha hsa
          · exact h4 p hp
      | false =>
        simp only at h
        obtain ⟨ps, x, w, r1, h1, h2, h3, h4, h5, h6⟩ := ih (by omega) (fun hm => hr (by rw [hs]; simp [hm])) h False (fun h => h.elim)
        simp only [Closed, List.nil_append] at h6
        have hlen : r1.length ≤ n := by
          have := congrArg List.length h1
          simp at this; omega
        obtain ⟨ps', x', w', r1', h1', h2', h3', h4', h5', h6'⟩ := ih hlen (fun hm => hr (by rw [hs, h1]; simp [hm])) h6 False (fun h => h.elim)
        refine ⟨(.elem m as (ps.map (·.1)), '<' :: m.toList ++ sa ++ '>' :: x ++ '<' :: '/' :: m.toList ++ w ++ ['>']) :: ps', _, w', r1', ?_, h2', h3', ?_,
          joined_cons (fun h => h) h5', closed_push h6'⟩
        · rw [hs, h1, h1']; simp [Frame.push]
        · intro p hp
          rcases List.mem_cons.1 hp with rfl | hp
          · exact .elem hm ha hsa h4 h5 h3
          · exact h4' p hp
    | node c =>
      by_cases ht : IsText c
      · obtain ⟨v, rfl⟩ := (isText_iff c).1 ht
        obtain ⟨w0, hw0, hs, hne, hr0⟩ := hf
        have hbF : ¬ b := fun h => hne (hb h)
        have hr0' : '\r' ∉ r0 := fun hm => hr (by rw [hs]; simp [hm])
        have hst : True → r0.head? = some '<' := by
          intro _
          rcases hr0 with rfl | h'
          · exfalso
            simp only at h
            split at h <;> (obtain ⟨t, r1, h1, -⟩ := root_token h; simp [XmlText.next] at h1)
          · exact h'
        have hbF' : b = False := propext ⟨hbF, fun h => h.elim⟩
        simp only at h
        split at h
        · next hk =>
          obtain ⟨ps, x, w, r1, h1, h2, h3, h4, h5, h6⟩ := ih (by omega) hr0' h True hst
          refine ⟨(.text v, w0) :: ps, w0 ++ x, w, r1, ?_, h2, h3, ?_, ?_, closed_push h6⟩
          · rw [hs, h1]; simp [Frame.push]
          · intro p hp
            rcases List.mem_cons.1 hp with rfl | hp
            · refine .text hw0 fun hbl => ?_
              have : XmlText.kept (.text v) = false := by
                simp only [XmlText.kept, Bool.not_eq_false', List.all_eq_true]
                intro c hc
                rcases hbl c hc with rfl | rfl | rfl | rfl <;> rfl
              rw [this] at hk; cases hk
            · exact h4 p hp
          · rw [hbF']
            have := Joined.cons (b := False) (w := []) (c := .text v) (s := w0) gap_nil (fun _ => rfl) (fun h => h.1) h5
            simpa using this
        · next hk =>
          obtain ⟨ps, x, w, r1, h1, h2, h3, h4, h5, h6⟩ := ih (by omega) hr0' h True hst
          refine ⟨ps, w0 ++ x, w, r1, by rw [hs, h1]; simp, h2, h3, h4, ?_, h6⟩
          rw [hbF']
          exact joined_gap ⟨v, kept_blank (by simpa using hk), hw0⟩ h5
      · have hsp : ∃ w0, Spells c w0 ∧ s = w0 ++ r0 := by
          cases c with
          | elem => exact hf.elim
          | text => exact absurd trivial ht
          | cdata => exact hf
          | comment => exact hf
          | pi => exact hf
        have hk : XmlText.kept c = true := by
          cases c with
          | text => exact absurd trivial ht
          | _ => rfl
        obtain ⟨w0, hw0, hs⟩ := hsp
        simp only [hk, if_true] at h
        obtain ⟨ps, x, w, r1, h1, h2, h3, h4, h5, h6⟩ := ih (by omega) (fun hm => hr (by rw [hs]; simp [hm])) h False (fun h => h.elim)
        refine ⟨(c, w0) :: ps, w0 ++ x, w, r1, by rw [hs, h1]; simp [Frame.push], h2, h3, ?_, joined_cons ht h5, closed_push h6⟩
        intro p hp
        rcases List.mem_cons.1 hp with rfl | hp
        · exact hw0
        · exact h4 p hp

/-! ## Documents -/

theorem around_gap {w a : Str} (hw : Gap w) (h : Around a) : Around (w ++ a) := by
  cases h with
  | gap h => exact .gap (gap_append hw h)
  | comment h1 h2 h3 h4 =>
    rw [← List.append_assoc, ← List.append_assoc]
    exact .comment (gap_append hw h1) h2 h3 h4
  | pi h1 h2 h3 h4 =>
    rw [← List.append_assoc, ← List.append_assoc]
    exact .pi (gap_append hw h1) h2 h3 h4

/-- A node outside the root. -/
theorem around_node {c : Node} {s r a : Str} (h : Found s (.node c) r) (hc : ¬ (Node.isChars c && XmlText.kept c) = true) (ha : Around a) :
    ∃ w, s = w ++ r ∧ Around (w ++ a) := by
  cases c with
  | elem => exact h.elim
  | text v =>
    obtain ⟨w, hw, hs, -, -⟩ := h
    refine ⟨w, hs, around_gap ⟨v, kept_blank ?_, hw⟩ ha⟩
    simpa [Node.isChars] using hc
  | cdata v => exact absurd rfl hc
  | comment v =>
    obtain ⟨w, hw, hs⟩ := h
    refine ⟨w, hs, ?_⟩
    cases hw with
    | comment h1 h2 =>
      have := Around.comment gap_nil h1 h2 ha
      simpa using this
  | pi v =>
    obtain ⟨w, hw, hs⟩ := h
    refine ⟨w, hs, ?_⟩
    cases hw with
    | pi h1 h2 =>
      have := Around.pi gap_nil h1 h2 ha
      simpa using this

theorem root_back (n : Nat) : ∀ {s r : Str} {e : Element}, s.length ≤ n → '\r' ∉ s → root [] s = some (e, r) →
    ∃ a x, Around a ∧ Spells e.node x ∧ s = a ++ x ++ r := by
  induction n with
  | zero =>
    intro s r e hl _ h
    obtain ⟨t, r0, _, h2⟩ := root_token h
    omega
  | succ n ih =>
    intro s r e hl hr h
    obtain ⟨t, r0, hn, hl0⟩ := root_token h
    have hf := next_back hr hn
    rw [root_eq _ _ _ _ hn hl0] at h
    cases t with
    | stop m => cases h
    | start m as z =>
      obtain ⟨hm, ha, sa, hsa, hs⟩ := hf
      cases z with
      | true =>
        cases h
        exact ⟨[], _, .gap gap_nil, .empty hm ha hsa, by rw [hs]; simp⟩
      | false =>
        obtain ⟨ps, x, w, r1, h1, h2, h3, h4, h5, rfl, rfl⟩ := frame_back _ (Nat.le_refl _) (fun hm => hr (by rw [hs]; simp [hm])) h False (fun h => h.elim)
        refine ⟨[], '<' :: m.toList ++ sa ++ '>' :: x ++ '<' :: '/' :: m.toList ++ w ++ ['>'], .gap gap_nil, ?_, ?_⟩
        · have := Spells.elem hm ha hsa h4 h5 h3
          simpa [Element.node] using this
        · rw [hs, h1]; simp
    | node c =>
      simp only at h
      split at h
      · cases h
      · next hc =>
        obtain ⟨w, hw, -⟩ := around_node hf hc (.gap gap_nil)
        obtain ⟨a, x, h1, h2, h3⟩ := ih (by omega) (fun hm => hr (by rw [hw]; simp [hm])) h
        obtain ⟨w', hw', h4⟩ := around_node hf hc h1
        exact ⟨w' ++ a, x, h4, h2, by rw [hw', h3]; simp⟩

theorem nothing_back (n : Nat) : ∀ {s : Str}, s.length ≤ n → '\r' ∉ s → nothing s = true → Around s := by
  induction n with
  | zero =>
    intro s hl _ _
    rw [List.length_eq_zero_iff.1 (by omega : s.length = 0)]
    exact .gap gap_nil
  | succ n ih =>
    intro s hl hr h
    by_cases hs : s = []
    · rw [hs]; exact .gap gap_nil
    rw [nothing, if_neg hs] at h
    split at h
    · next c r hn =>
      split at h
      · rw [Bool.and_eq_true] at h
        have hc : ¬ (Node.isChars c && XmlText.kept c) = true := by
          intro hc; rw [hc] at h; exact absurd h.1 (by decide)
        obtain ⟨w, hw, -⟩ := around_node (next_back hr hn) hc (.gap gap_nil)
        obtain ⟨w', hw', h4⟩ := around_node (next_back hr hn) hc (ih (by omega) (fun hm => hr (by rw [hw]; simp [hm])) h.2)
        rw [hw']; exact h4
      · cases h
    · cases h

theorem lines_cr (t : Str) : '\r' ∉ lines t := by
  induction t using lines.induct with
  | case1 => simp [lines]
  | case2 s ih => rw [lines]; simpa using ih
  | case3 s h ih => rw [lines]; · simpa using ih
                    · exact h
  | case4 c s h1 h2 ih =>
    rw [lines]
    · simp only [List.mem_cons, not_or]; exact ⟨fun h => h2 h.symm, ih⟩
    · exact h1
    · exact h2

/-- **C140.** A text is parsed as a document exactly if it is a spelling of the document. -/
theorem C140_exact (e : Element) (t : Str) : parse t = some e ↔ SpellsDoc e t := by
  refine ⟨fun h => ?_, C140_parse⟩
  obtain ⟨⟨e', r⟩, h1, h⟩ := Option.bind_eq_some_iff.1 h
  simp only at h
  split at h
  · next hn =>
    cases h
    obtain ⟨a, x, ha, hx, hs⟩ := root_back _ (Nat.le_refl _) (lines_cr t) h1
    exact ⟨a, x, r, ha, hx, nothing_back _ (Nat.le_refl _) (fun hm => lines_cr t (by rw [hs]; simp [hm])) hn, (lines_iff _ _).2 hs⟩
  · cases h

/-- **C140.** Which files are read, which are refused, and which make the program panic: a file is read exactly if it is a
spelling of an acceptable document without quadratic points in cubic contours. -/
theorem C140_files (mid : IOF → IOF → IOF) (pio : PlistIO D) (lay : Layout) (ped : Pedantry) (t : Str) :
    ((∃ g : Glif PD D, readText mid pio (io lay) ped t = .ok g) ↔
      ∃ e, SpellsDoc e t ∧ Acceptable ped e ∧ ∀ c ∈ contoursOf e, ¬ QuadraticInCubic c) ∧
    ((∃ x, readText (PD := PD) mid pio (io lay) ped t = .err x) ↔ ∀ e, SpellsDoc e t → ¬ Acceptable ped e) ∧
    (readText (PD := PD) mid pio (io lay) ped t = .panic ↔
      ∃ e, SpellsDoc e t ∧ Acceptable ped e ∧ ∃ c ∈ contoursOf e, QuadraticInCubic c) := by
  cases hp : parse t with
  | none =>
    have hno : ∀ e, ¬ SpellsDoc e t := fun e h => by rw [C140_parse h] at hp; cases hp
    have hr : readText (PD := PD) mid pio (io lay) ped t = .err .xmlParse := by
      unfold readText
      rw [show (io lay).parse t = none from hp]
      rfl
    rw [hr]
    exact ⟨⟨fun ⟨_, h⟩ => (nomatch h), fun ⟨e, h, _⟩ => absurd h (hno e)⟩, ⟨fun _ e h => absurd h (hno e), fun _ => ⟨_, rfl⟩⟩,
      ⟨fun h => (nomatch h), fun ⟨e, h, _⟩ => absurd h (hno e)⟩⟩
  | some e =>
    have he := (C140_exact e t).1 hp
    have hu : ∀ d, SpellsDoc d t → d = e := fun d h => C140_unambiguous h he
    have hr : readText (PD := PD) mid pio (io lay) ped t = readGlif mid pio ped e := by
      unfold readText
      rw [show (io lay).parse t = some e from hp]
      rfl
    rw [hr]
    have h1 := C58_error_iff (PD := PD) mid pio ped e
    have h2 := C07_panics_iff (PD := PD) mid pio ped e
    refine ⟨⟨?_, ?_⟩, ⟨?_, ?_⟩, ⟨?_, ?_⟩⟩
    · rintro ⟨g, hg⟩
      have ha : Acceptable ped e := Classical.not_not.1 fun h => by
        obtain ⟨x, hx⟩ := h1.2 h
        rw [hg] at hx; cases hx
      exact ⟨e, he, ha, fun c hc hq => by rw [h2.2 ⟨ha, c, hc, hq⟩] at hg; cases hg⟩
    · rintro ⟨d, hd, ha, hc⟩
      rw [hu d hd] at ha hc
      cases hx : readGlif (PD := PD) mid pio ped e with
      | ok g => exact ⟨g, rfl⟩
      | err x => exact absurd ha (h1.1 ⟨x, hx⟩)
      | panic =>
        obtain ⟨_, c, hcm, hq⟩ := h2.1 hx
        exact absurd hq (hc c hcm)
    · intro hx d hd
      rw [hu d hd]
      exact h1.1 hx
    · intro h
      exact h1.2 (h e he)
    · intro hx
      obtain ⟨ha, hc⟩ := h2.1 hx
      exact ⟨e, he, ha, hc⟩
    · rintro ⟨d, hd, ha, hc⟩
      rw [hu d hd] at ha hc
      exact h2.2 ⟨ha, hc⟩

/-- A text that is not a spelling of any document: the tags do not match. -/
example : ∀ e, ¬ SpellsDoc e "<glyph><b></glyph></b>".toList := by
  intro e h
  have := (C140_exact e _).2 h
  have h2 : parse "<glyph><b></glyph></b>".toList = none := by decide +kernel
  rw [h2] at this; cases this

end GP
