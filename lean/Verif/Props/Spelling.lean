import Verif.Spec.Spelling
import Verif.Props.XmlText
import Verif.Props.Decimal
/-!
# However a file is spelled, it is read alike (C140)
-/
open Fl Fl.Text
namespace GP
open Spec XmlText
variable {PD D : Type}

/-! ## Characters and references -/

theorem lines_of {s t : Str} (h : LineEnds s t) : lines t = s := by
  induction h with
  | nil => rfl
  | @char c s t hc _ ih =>
    unfold lines
    split
    · next h => cases h
    · next h => rw [List.cons.injEq] at h; exact absurd h.1 hc
    · next h => rw [List.cons.injEq] at h; exact absurd h.1 hc
    · next h => rw [List.cons.injEq] at h; rw [← h.1, ← h.2, ih]
  | crlf _ ih => rw [lines, ih]
  | @cr s t hn _ ih =>
    cases t with
    | nil => rw [← ih]; rfl
    | cons c t =>
      unfold lines
      split
      · next h => cases h
      · next h => rw [List.cons.injEq, List.cons.injEq] at h; exact absurd (by rw [h.2.1]; rfl) hn
      · next h => rw [List.cons.injEq] at h; rw [← h.2, ih]
      · next h1 h => rw [List.cons.injEq] at h; exact absurd h.1.symm (by simpa using h1)

theorem lines_iff (s t : Str) : LineEnds s t ↔ lines t = s := by
  refine ⟨lines_of, ?_⟩
  rintro rfl
  induction t using lines.induct with
  | case1 => exact .nil
  | case2 s ih => exact .crlf ih
  | case3 s h ih =>
    have : lines ('\r' :: s) = '\n' :: lines s := by
      rw [lines]
      exact h
    rw [this]
    refine .cr ?_ ih
    cases s with
    | nil => simp
    | cons c s => simp only [List.head?_cons, ne_eq, Option.some.injEq]; rintro rfl; exact h s rfl
  | case4 c s h1 h2 ih =>
    have hc : c ≠ '\r' := fun h => h2 h
    have : lines (c :: s) = c :: lines s := by
      rw [lines]
      · exact h1
      · exact h2
    rw [this]
    exact .char hc ih

theorem numeral_parse {b : Nat} (hb : b ≤ 16) {ds : Str} {n : Nat} (h : Numeral b ds n) : parseNat b ds = some n ∧ ∀ d ∈ ds, isDigit b d = true := by
  have h1 := (numeral_iff hb ds n).1 h
  refine ⟨h1, ?_⟩
  unfold parseNat at h1
  split at h1
  · next h2 => exact fun d hd => List.all_eq_true.1 h2.2 d hd
  · cases h1

/-- What is between `&` and `;`. -/
theorem refers_entity {c : Char} {r : Str} (h : CharRef c r) : ∃ e, r = '&' :: e ++ [';'] ∧ ';' ∉ e ∧ entity e = some c := by
  cases h with
  | lt => exact ⟨"lt".toList, rfl, by decide, rfl⟩
  | gt => exact ⟨"gt".toList, rfl, by decide, rfl⟩
  | amp => exact ⟨"amp".toList, rfl, by decide, rfl⟩
  | quot => exact ⟨"quot".toList, rfl, by decide, rfl⟩
  | apos => exact ⟨"apos".toList, rfl, by decide, rfl⟩
  | dec hd hc =>
    obtain ⟨h1, h2⟩ := numeral_parse (by decide) hd
    rename_i ds
    refine ⟨'#' :: ds, rfl, ?_, ?_⟩
    · simp only [List.mem_cons, not_or]
      exact ⟨by decide, fun hm => absurd (h2 _ hm) (by decide)⟩
    · have hx : entity ('#' :: ds) = (parseNat 10 ds).bind fun n => (charFromU32 n).filter allowed := by
        unfold entity
        split
        · next h => cases h
        · next h => cases h
        · next h => cases h
        · next h => cases h
        · next h => cases h
        · next h => cases h; exact absurd (h2 'x' (by simp)) (by decide)
        · next h => cases h; rfl
        · next h3 => exact absurd rfl (h3 ds)
      rw [hx, h1, Option.bind_some, (charFromU32_iff _ c).2 rfl]
      simp [Option.filter, (allowed_iff c).2 hc]
  | hex hd hc =>
    obtain ⟨h1, h2⟩ := numeral_parse (by decide) hd
    rename_i ds
    refine ⟨'#' :: 'x' :: ds, rfl, ?_, ?_⟩
    · simp only [List.mem_cons, not_or]
      exact ⟨by decide, by decide, fun hm => absurd (h2 _ hm) (by decide)⟩
    · rw [entity, h1, Option.bind_some, (charFromU32_iff _ c).2 rfl]
      simp [Option.filter, (allowed_iff c).2 hc]

theorem decode_in (one : Char → Option Char) {c : Char} {e : Str} (hs : ';' ∉ e) (r s : Str) (he : entity (r ++ e) = some c) :
    decode one (some r) (e ++ ';' :: s) = (decode one none s).map (c :: ·) := by
  induction e generalizing r with
  | nil =>
    rw [List.append_nil] at he
    rw [List.nil_append, decode, if_pos rfl, he]
    cases decode one none s <;> rfl
  | cons d e ih =>
    simp only [List.mem_cons, not_or] at hs
    rw [List.cons_append, decode, if_neg (Ne.symm hs.1), ih hs.2 (r ++ [d]) (by simpa using he)]

theorem decode_ref (one : Char → Option Char) {c : Char} {e : Str} (hs : ';' ∉ e) (he : entity e = some c) (s : Str) :
    decode one none ('&' :: e ++ ';' :: s) = (decode one none s).map (c :: ·) := by
  rw [List.cons_append, decode, if_pos rfl, decode_in one hs [] s he]

theorem decode_spelled {one : Char → Option Char} {stands : Char → Char → Prop} (h1 : ∀ c d, stands c d → d ≠ '&' ∧ one d = some c)
    {v s : Str} (h : SpellsText stands v s) : decode one none s = some v := by
  induction h with
  | nil => rfl
  | @char c d v s hc _ ih =>
    obtain ⟨h2, h3⟩ := h1 _ _ hc
    rw [decode, if_neg h2, h3, ih]; rfl
  | @ref c r v s hr _ ih =>
    obtain ⟨e, rfl, hs, he⟩ := refers_entity hr
    rw [List.append_assoc, List.singleton_append, decode_ref one hs he, ih]; rfl

theorem in_quotes {q c d : Char} (h : InQuotes q c d) : d ≠ '&' ∧ oneAttr d = some c := by
  obtain ⟨h1, h2, h3, h4, -, h5⟩ := h
  refine ⟨h3, ?_⟩
  unfold oneAttr
  rw [if_neg h2]
  rcases h5 with ⟨rfl | rfl, rfl⟩ | ⟨h6, h7, rfl⟩
  · rfl
  · rfl
  · split
    · next hs =>
      simp only [space, Bool.or_eq_true, beq_iff_eq] at hs
      rcases hs with ((rfl | rfl) | rfl) | rfl
      · rfl
      · exact absurd rfl h6
      · exact absurd rfl h7
      · exact absurd rfl h4
    · rw [if_pos ((allowed_iff _).2 h1)]

theorem in_text {c d : Char} (h : InText c d) : d ≠ '&' ∧ oneText d = some c := by
  obtain ⟨h1, h2, h3, -, rfl⟩ := h
  exact ⟨h3, by unfold oneText; rw [if_neg h2, if_pos ((allowed_iff _).2 h1)]⟩

theorem ref_chars {c : Char} {r : Str} (h : CharRef c r) : ∀ d ∈ r, d ≠ '<' ∧ d ≠ '"' ∧ d ≠ '\'' := by
  have hdig : ∀ b ≤ 16, ∀ d, isDigit b d = true → d ≠ '<' ∧ d ≠ '"' ∧ d ≠ '\'' := by
    intro b hb d hd
    refine ⟨?_, ?_, ?_⟩ <;> (rintro rfl; simp [isDigit, digitVal] at hd; omega)
  cases h with
  | lt => decide
  | gt => decide
  | amp => decide
  | quot => decide
  | apos => decide
  | dec hd hc =>
    intro d hm
    rcases List.mem_append.1 hm with hm | hm
    · rcases List.mem_append.1 hm with hm | hm
      · clear * - hm; revert d; decide
      · exact hdig 10 (by decide) d ((numeral_parse (by decide) hd).2 d hm)
    · rw [List.mem_singleton.1 hm]; decide
  | hex hd hc =>
    intro d hm
    rcases List.mem_append.1 hm with hm | hm
    · rcases List.mem_append.1 hm with hm | hm
      · clear * - hm; revert d; decide
      · exact hdig 16 (by decide) d ((numeral_parse (by decide) hd).2 d hm)
    · rw [List.mem_singleton.1 hm]; decide

theorem spelled_chars {stands : Char → Char → Prop} {P : Char → Prop} (h1 : ∀ c d, stands c d → P d)
    (h2 : ∀ d, d ≠ '<' ∧ d ≠ '"' ∧ d ≠ '\'' → P d) {v s : Str} (h : SpellsText stands v s) : ∀ d ∈ s, P d := by
  induction h with
  | nil => simp
  | char hc _ ih =>
    intro d hd
    rcases List.mem_cons.1 hd with rfl | hd
    · exact h1 _ _ hc
    · exact ih d hd
  | ref hr _ ih =>
    intro d hd
    rcases List.mem_append.1 hd with hd | hd
    · exact h2 d (ref_chars hr d hd)
    · exact ih d hd

theorem white_gap {w : Str} (h : White w) : Gap w := by
  refine ⟨w, fun c hc => by rcases h c hc with h | h | h <;> simp [h], ?_⟩
  induction w with
  | nil => exact .nil
  | cons c w ih =>
    refine .char ?_ (ih fun d hd => h d (by simp [hd]))
    rcases h c (by simp) with rfl | rfl | rfl <;> exact ⟨by decide, by decide, by decide, by decide, rfl⟩

theorem gap_nil : Gap [] := ⟨[], by simp [Blank], .nil⟩

theorem gap_reads {w : Str} (h : Gap w) : ∃ v, decode oneText none w = some v ∧ XmlText.kept (.text v) = false ∧ ∀ c ∈ w, c ≠ '<' := by
  obtain ⟨v, hb, hs⟩ := h
  refine ⟨v, decode_spelled (fun _ _ h => in_text h) hs, ?_, fun c hc => spelled_chars (P := (· ≠ '<')) (fun _ _ h => h.2.1) (fun _ h => h.1) hs c hc⟩
  simp only [XmlText.kept, Bool.not_eq_false', List.all_eq_true]
  intro c hc
  rcases hb c hc with rfl | rfl | rfl | rfl <;> rfl

theorem root_gap (st : List Frame) {w : Str} (h : Gap w) (r : Str) : root st (w ++ '<' :: r) = root st ('<' :: r) := by
  by_cases hw : w = []
  · rw [hw, List.nil_append]
  · obtain ⟨v, hd, hk, hl⟩ := gap_reads h
    rw [root_eq st _ _ _ (next_chars w v r hw hl hd) (by have := List.length_pos_iff.2 hw; simp; omega)]
    cases st with
    | nil => simp [Node.isChars, hk]
    | cons f st => simp [hk]

/-! ## Tags -/

theorem value_spelled {q : Char} (hq : q = '"' ∨ q = '\'') {v s : Str} (h : SpellsText (InQuotes q) v s) (r : Str) :
    value (q :: s ++ q :: r) = some (v, r) := by
  have hn : q ∉ s := fun hm => spelled_chars (P := (· ≠ q)) (fun c d h => h.2.2.2.2.1)
    (fun d hd => by rcases hq with rfl | rfl; exacts [hd.2.1, hd.2.2]) h q hm rfl
  have hd : decode oneAttr none s = some v := decode_spelled (fun c d h => in_quotes h) h
  rcases hq with rfl | rfl
  · show (do let (w, r) ← cutAt ['"'] (s ++ '"' :: r); some (← decode oneAttr none w, r)) = _
    rw [cutAt_one _ _ _ hn]
    show (do some (← decode oneAttr none s, r)) = _
    rw [hd]; rfl
  · show (do let (w, r) ← cutAt ['\''] (s ++ '\'' :: r); some (← decode oneAttr none w, r)) = _
    rw [cutAt_one _ _ _ hn]
    show (do some (← decode oneAttr none s, r)) = _
    rw [hd]; rfl

theorem white_space {w : Str} (h : White w) : ∀ c ∈ w, space c = true := by
  intro c hc
  rcases h c hc with rfl | rfl | rfl <;> rfl

theorem drop_white {w : Str} (h : White w) {c : Char} (hc : space c = false) (r : Str) :
    (w ++ c :: r).takeWhile space = w ∧ (w ++ c :: r).dropWhile space = c :: r := takeWhile_all space w c r (white_space h) hc

theorem attrs_spelled {as : List (String × Str)} {s : Str} (h : SpellsAttrs as s) : ∀ (got : List (String × Str)),
    ((got ++ as).map (·.1)).Nodup → ∀ (e : Bool) (r : Str) (fuel : Nat), as.length < fuel →
    attrs fuel got (s ++ ((if e then ['/', '>'] else ['>']) ++ r)) = some (got ++ as, e, r) := by
  induction h with
  | @nil w hw =>
    intro got _ e r fuel hf
    cases fuel with
    | zero => simp at hf
    | succ fuel =>
      rw [attrs]
      cases e
      · rw [show w ++ ((if false = true then ['/', '>'] else ['>']) ++ r) = w ++ '>' :: r from rfl, (drop_white hw rfl _).2]; simp
      · rw [show w ++ ((if true = true then ['/', '>'] else ['>']) ++ r) = w ++ '/' :: ('>' :: r) from rfl, (drop_white hw rfl _).2]; simp
  | @cons a as s t ha _ ih =>
    intro got hn e r fuel hf
    cases fuel with
    | zero => simp at hf
    | succ fuel =>
      cases ha with
      | @mk k v w w1 w2 q s hk hwn hw hw1 hw2 hq hv =>
        obtain ⟨c, l, hkl, hc⟩ := name_cons k hk
        have hcn := nameChar_not c hc
        set rest := t ++ ((if e then ['/', '>'] else ['>']) ++ r) with hrest
        have hs : (w ++ k.toList ++ w1 ++ '=' :: w2 ++ q :: s ++ [q] ++ t) ++ ((if e then ['/', '>'] else ['>']) ++ r) =
            w ++ (k.toList ++ (w1 ++ '=' :: (w2 ++ (q :: s ++ q :: rest)))) := by
          rw [hrest]; simp
        have hqs : space q = false := by rcases hq with rfl | rfl <;> rfl
        have hwk := drop_white hw (c := c) hcn.2.2.2.2.2.2.1 (l ++ (w1 ++ '=' :: (w2 ++ (q :: s ++ q :: rest))))
        rw [← List.cons_append, ← hkl] at hwk
        rw [hs, attrs, hwk.2]
        have hname : name (k.toList ++ (w1 ++ '=' :: (w2 ++ (q :: s ++ q :: rest)))) = some (k.toList, w1 ++ '=' :: (w2 ++ (q :: s ++ q :: rest))) := by
          cases w1 with
          | nil => exact name_eq k hk '=' _ (by decide)
          | cons x w1 =>
            refine name_eq k hk x _ ?_
            rcases hw1 x (by simp) with rfl | rfl | rfl <;> decide
        split
        · next h2 => rw [hkl, List.cons_append, List.cons.injEq] at h2; exact absurd h2.1 hcn.2.2.2.2.2.1
        · next h2 => rw [hkl, List.cons_append, List.cons.injEq] at h2; exact absurd h2.1 hcn.2.2.1
        · rw [if_neg (by rw [hwk.1]; simpa using hwn), hname]
          show (match (w1 ++ '=' :: (w2 ++ (q :: s ++ q :: rest))).dropWhile space with
            | '=' :: r => _
            | _ => none) = _
          rw [(drop_white hw1 (by rfl) _).2]
          show (do let (v, r) ← value ((w2 ++ (q :: s ++ q :: rest)).dropWhile space); _) = _
          rw [show (w2 ++ (q :: s ++ q :: rest)).dropWhile space = q :: s ++ q :: rest from (drop_white hw2 hqs _).2, value_spelled hq hv]
          show (if got.any (·.1 == String.ofList k.toList) then none else attrs fuel (got ++ [(String.ofList k.toList, v)]) rest) = _
          rw [String.ofList_toList, if_neg, ih (got ++ [(k, v)]) (by simpa using hn) e r fuel (by simp at hf; omega)]
          · simp
          · intro hany
            rw [List.any_eq_true] at hany
            obtain ⟨b, hb, he⟩ := hany
            rw [beq_iff_eq] at he
            simp only [List.map_append, List.map_cons, List.nodup_append] at hn
            exact hn.2.2 _ (List.mem_map.2 ⟨b, hb, rfl⟩) k (by simp) he

theorem attrs_length {as : List (String × Str)} {s : Str} (h : SpellsAttrs as s) : as.length ≤ s.length := by
  induction h with
  | nil => simp
  | cons ha _ ih =>
    cases ha with
    | mk => simp; omega

/-- What comes after the name in a start tag is no letter. -/
theorem after_tag_name {as : List (String × Str)} {s : Str} (h : SpellsAttrs as s) (e : Bool) (r : Str) :
    ∃ c l, nameChar c = false ∧ s ++ ((if e then ['/', '>'] else ['>']) ++ r) = c :: l := by
  have hw : ∀ {w : Str}, White w → w ≠ [] → ∀ t, ∃ c l, nameChar c = false ∧ w ++ t = c :: l := by
    intro w hw hn t
    cases w with
    | nil => exact absurd rfl hn
    | cons c w =>
      refine ⟨c, w ++ t, ?_, rfl⟩
      rcases hw c (by simp) with rfl | rfl | rfl <;> decide
  cases h with
  | @nil _ h =>
    by_cases hn : s = []
    · subst hn
      cases e
      · exact ⟨'>', r, by decide, rfl⟩
      · exact ⟨'/', '>' :: r, by decide, rfl⟩
    · exact hw h hn _
  | cons ha _ =>
    cases ha with
    | mk _ hn h _ _ _ _ =>
      simp only [List.append_assoc]
      exact hw h hn _

theorem next_tag {n : String} {as : List (String × Str)} {s : Str} (e : Bool) (r : Str) (hn : XmlName n) (ha : (as.map (·.1)).Nodup)
    (h : SpellsAttrs as s) :
    XmlText.next ('<' :: (n.toList ++ (s ++ ((if e then ['/', '>'] else ['>']) ++ r)))) = some (.start n as e, r) := by
  obtain ⟨c, l, hk, hc⟩ := name_cons n hn
  have hcn := nameChar_not c hc
  obtain ⟨c', l', hc', hl'⟩ := after_tag_name h e r
  have hname := name_eq n hn c' l' hc'
  rw [← hl'] at hname
  have hat := attrs_spelled h [] (by simpa using ha) e r ((s ++ ((if e then ['/', '>'] else ['>']) ++ r)).length + 1)
    (by have := attrs_length h; simp only [List.length_append]; omega)
  have hgo : (do
      let (n, r) ← name (n.toList ++ (s ++ ((if e then ['/', '>'] else ['>']) ++ r)))
      let (as, e, r) ← attrs (r.length + 1) [] r
      some (Tok.start (String.ofList n) as e, r)) = some (.start n as e, r) := by
    rw [hname]
    show (do let (as, e, r) ← attrs _ [] _; some (Tok.start (String.ofList n.toList) as e, r)) = _
    rw [hat, String.ofList_toList]
    rfl
  unfold XmlText.next
  split
  · next h => cases h
  · next h => rw [hk, List.cons_append, List.cons.injEq, List.cons.injEq] at h; exact absurd h.2.1 hcn.1
  · next h => rw [hk, List.cons_append, List.cons.injEq, List.cons.injEq] at h; exact absurd h.2.1 hcn.1
  · next h => rw [hk, List.cons_append, List.cons.injEq, List.cons.injEq] at h; exact absurd h.2.1 hcn.2.1
  · next h => rw [hk, List.cons_append, List.cons.injEq, List.cons.injEq] at h; exact absurd h.2.1 hcn.2.2.1
  · next h => rw [List.cons.injEq] at h; rw [← h.2]; exact hgo
  · next h3 h => rw [List.cons.injEq] at h; exact absurd h.1.symm h3

theorem next_end {n : String} {w : Str} (hw : White w) (r : Str) (hn : XmlName n) :
    XmlText.next ('<' :: '/' :: (n.toList ++ (w ++ '>' :: r))) = some (.stop n, r) := by
  show (do
    let (n, r) ← name (n.toList ++ (w ++ '>' :: r))
    match r.dropWhile space with
    | '>' :: r => some (Tok.stop (String.ofList n), r)
    | _ => none) = _
  have hname : name (n.toList ++ (w ++ '>' :: r)) = some (n.toList, w ++ '>' :: r) := by
    cases w with
    | nil => exact name_eq n hn '>' _ (by decide)
    | cons x w =>
      refine name_eq n hn x _ ?_
      rcases hw x (by simp) with rfl | rfl | rfl <;> decide
  rw [hname]
  show (match (w ++ '>' :: r).dropWhile space with
    | '>' :: r => some (Tok.stop (String.ofList n.toList), r)
    | _ => none) = _
  rw [(drop_white hw (by rfl) r).2, String.ofList_toList]
  rfl

/-! ## Nodes -/

/-- The text of the node is read as the node, wherever it stands. -/
def SpelledReads (c : Node) (s : Str) : Prop :=
  ∀ f st r, (IsText c → ∃ r', r = '<' :: r') → root (f :: st) (s ++ r) = root (f.push c :: st) r

theorem spelled_tag {c : Node} {s : Str} (h : Spells c s) (hc : ¬ IsText c) : ∃ r, s = '<' :: r := by
  cases h with
  | text => exact absurd trivial hc
  | _ => exact ⟨_, rfl⟩

theorem root_joined {n : String} {as : List (String × Str)} {st : List Frame} {b : Prop} {ps : List (Node × Str)} {s : Str}
    (h : Joined b ps s) : (∀ p ∈ ps, Spells p.1 p.2 ∧ SpelledReads p.1 p.2) → ∀ done r,
    (b → ∃ r', s ++ '<' :: r = '<' :: r') ∧
    root (⟨n, as, done⟩ :: st) (s ++ '<' :: r) = root (⟨n, as, done ++ ps.map (·.1)⟩ :: st) ('<' :: r) := by
  induction h with
  | @nil b w hw hb =>
    intro _ done r
    refine ⟨fun h => ⟨r, by rw [hb h]; rfl⟩, ?_⟩
    rw [root_gap _ hw _]; simp
  | @cons b w c s ps t hw hb hbc _ ih =>
    intro hp done r
    obtain ⟨h1, h2⟩ := hp (c, s) (List.mem_cons_self ..)
    obtain ⟨h3, h4⟩ := ih (fun p hp' => hp p (List.mem_cons_of_mem _ hp')) (done ++ [c]) r
    have hread := h2 ⟨n, as, done⟩ st (t ++ '<' :: r) h3
    constructor
    · intro h
      obtain ⟨r', hr'⟩ := spelled_tag h1 fun hc => hbc ⟨h, hc⟩
      exact ⟨r' ++ t ++ '<' :: r, by rw [hb (Or.inl h)]; simp only at hr'; rw [hr']; simp⟩
    · rw [List.append_assoc, List.append_assoc]
      have : root (⟨n, as, done⟩ :: st) (w ++ (s ++ (t ++ '<' :: r))) = root (⟨n, as, done⟩ :: st) (s ++ (t ++ '<' :: r)) := by
        by_cases hc : IsText c
        · rw [hb (Or.inr hc)]; rfl
        · obtain ⟨r', hr'⟩ := spelled_tag h1 hc
          simp only at hr'
          rw [hr', List.cons_append, root_gap _ hw _]
      rw [this, hread]
      show root (⟨n, as, done ++ [c]⟩ :: st) (t ++ '<' :: r) = _
      rw [h4]; simp

theorem spelled_nil {stands : Char → Char → Prop} {v : Str} (h : SpellsText stands v []) : v = [] := by
  generalize hs : ([] : Str) = s at h
  cases h with
  | nil => rfl
  | char => cases hs
  | ref hr _ =>
    obtain ⟨e, rfl, -, -⟩ := refers_entity hr
    cases hs

theorem spelled_reads {c : Node} {s : Str} (h : Spells c s) : SpelledReads c s := by
  induction h with
  | @elem n as sa w b ps hn ha hs hp hj hw ih =>
    intro f st r _
    rw [show ('<' :: n.toList ++ sa ++ '>' :: b ++ '<' :: '/' :: n.toList ++ w ++ ['>']) ++ r =
      '<' :: (n.toList ++ (sa ++ ((if false then ['/', '>'] else ['>']) ++ (b ++ '<' :: '/' :: (n.toList ++ (w ++ '>' :: r)))))) by simp]
    rw [root_eq _ _ _ _ (next_tag false _ hn ha hs) (by simp; omega)]
    show root (⟨n, as, []⟩ :: f :: st) _ = _
    rw [(root_joined hj (fun p hp' => ⟨hp p hp', ih p hp'⟩) [] _).2,
      root_eq _ _ _ _ (next_end hw r hn) (by simp; omega)]
    simp only [List.nil_append, if_true]
  | @empty n as sa hn ha hs =>
    intro f st r _
    rw [show ('<' :: n.toList ++ sa ++ ['/', '>']) ++ r = '<' :: (n.toList ++ (sa ++ ((if true then ['/', '>'] else ['>']) ++ r))) by simp]
    rw [root_eq _ _ _ _ (next_tag true _ hn ha hs) (by simp; omega)]
  | @text v s hs hb =>
    intro f st r hr
    obtain ⟨r', rfl⟩ := hr trivial
    have hne : s ≠ [] := by
      rintro rfl
      rw [spelled_nil hs] at hb
      exact hb (by simp [Blank])
    have hv : kept (.text v) = true := by
      by_contra hk
      apply hb
      simp only [XmlText.kept, Bool.not_eq_true', Bool.not_eq_false, List.all_eq_true] at hk
      intro c hc
      have := hk c hc
      simp only [space, Bool.or_eq_true, beq_iff_eq] at this
      tauto
    rw [root_eq _ _ _ _ (next_chars s v r' hne
      (fun c hc => spelled_chars (P := (· ≠ '<')) (fun _ _ h => h.2.1) (fun _ h => h.1) hs c hc) (decode_spelled (fun _ _ h => in_text h) hs))
      (by have := List.length_pos_iff.2 hne; simp; omega)]
    simp only [hv, if_true]
  | @cdata s h he =>
    intro f st r _
    rw [root_eq _ _ _ _ (next_cdata s r h he) (by simp; omega)]
    rfl
  | @comment s h he =>
    intro f st r _
    rw [root_eq _ _ _ _ (next_comment s r h he) (by simp; omega)]
    rfl
  | @pi s h he =>
    intro f st r _
    rw [root_eq _ _ _ _ (next_pi s r h he) (by simp; omega)]
    rfl

/-! ## Documents -/

theorem root_around {a : Str} (h : Around a) (r : Str) : root [] (a ++ '<' :: r) = root [] ('<' :: r) := by
  induction h with
  | gap hw => exact root_gap [] hw _
  | @comment w s t hw hs he _ ih =>
    rw [show w ++ ("<!--".toList ++ s ++ "-->".toList) ++ t ++ '<' :: r = w ++ '<' :: ("!--".toList ++ s ++ "-->".toList ++ (t ++ '<' :: r)) by simp,
      root_gap [] hw _,
      show '<' :: ("!--".toList ++ s ++ "-->".toList ++ (t ++ '<' :: r)) = "<!--".toList ++ s ++ "-->".toList ++ (t ++ '<' :: r) by simp,
      root_eq _ _ _ _ (next_comment s _ hs he) (by simp; omega)]
    exact ih
  | @pi w s t hw hs he _ ih =>
    rw [show w ++ ("<?".toList ++ s ++ "?>".toList) ++ t ++ '<' :: r = w ++ '<' :: ("?".toList ++ s ++ "?>".toList ++ (t ++ '<' :: r)) by simp,
      root_gap [] hw _,
      show '<' :: ("?".toList ++ s ++ "?>".toList ++ (t ++ '<' :: r)) = "<?".toList ++ s ++ "?>".toList ++ (t ++ '<' :: r) by simp,
      root_eq _ _ _ _ (next_pi s _ hs he) (by simp; omega)]
    exact ih

theorem nothing_eq (s : Str) (c : Node) (r : Str) (h : XmlText.next s = some (.node c, r)) (hl : r.length < s.length) :
    nothing s = (!(Node.isChars c && kept c) && nothing r) := by
  have hs : s ≠ [] := by rintro rfl; simp at hl
  rw [nothing, if_neg hs, h]
  simp only [hl, if_true]

theorem takeWhile_whole {α : Type} (p : α → Bool) (l : List α) (h : ∀ x ∈ l, p x = true) : l.takeWhile p = l ∧ l.dropWhile p = [] := by
  induction l with
  | nil => exact ⟨rfl, rfl⟩
  | cons x l ih =>
    have := ih fun y hy => h y (by simp [hy])
    simp [h x (by simp), this.1, this.2]

theorem next_last {w v : Str} (hn : w ≠ []) (hd : decode oneText none w = some v) (hl : ∀ c ∈ w, c ≠ '<') :
    XmlText.next w = some (.node (.text v), []) := by
  have hgo : (do
      let t ← decode oneText none (w.takeWhile (· != '<'))
      some (Tok.node (.text t), w.dropWhile (· != '<'))) = some (.node (.text v), []) := by
    rw [(takeWhile_whole (· != '<') w (by simpa using hl)).1, (takeWhile_whole (· != '<') w (by simpa using hl)).2, hd]
    rfl
  obtain ⟨c, w, rfl⟩ := List.exists_cons_of_ne_nil hn
  have hc := hl c (by simp)
  unfold XmlText.next
  split
  · next h => cases h
  · next h => rw [List.cons.injEq] at h; exact absurd h.1 hc
  · next h => rw [List.cons.injEq] at h; exact absurd h.1 hc
  · next h => rw [List.cons.injEq] at h; exact absurd h.1 hc
  · next h => rw [List.cons.injEq] at h; exact absurd h.1 hc
  · next h => rw [List.cons.injEq] at h; exact absurd h.1 hc
  · next h => rw [← h]; exact hgo

theorem nothing_gap {w : Str} (hw : Gap w) (r : Str) (hr : r = [] ∨ ∃ r', r = '<' :: r') : nothing (w ++ r) = nothing r := by
  by_cases hn : w = []
  · rw [hn]; rfl
  · have hl := List.length_pos_iff.2 hn
    obtain ⟨v, hd, hk, hc⟩ := gap_reads hw
    rcases hr with rfl | ⟨r', rfl⟩
    · rw [List.append_nil, nothing_eq _ _ _ (next_last hn hd hc) (by simpa using hl), hk]
      simp
    · rw [nothing_eq _ _ _ (next_chars w v r' hn hc hd) (by simp; omega), hk]
      simp

theorem nothing_nil : nothing [] = true := by rw [nothing]; rfl

theorem nothing_around {a : Str} (h : Around a) : nothing a = true := by
  induction h with
  | @gap w hw =>
    have := nothing_gap hw [] (Or.inl rfl)
    rw [List.append_nil] at this
    rw [this, nothing_nil]
  | @comment w s t hw hs he _ ih =>
    rw [List.append_assoc, nothing_gap hw ("<!--".toList ++ s ++ "-->".toList ++ t) (Or.inr ⟨_, rfl⟩), nothing_eq _ _ _ (next_comment s t hs he) (by simp; omega), ih]
    rfl
  | @pi w s t hw hs he _ ih =>
    rw [List.append_assoc, nothing_gap hw ("<?".toList ++ s ++ "?>".toList ++ t) (Or.inr ⟨_, rfl⟩), nothing_eq _ _ _ (next_pi s t hs he) (by simp; omega), ih]
    rfl

theorem root_spelled {n : String} {as : List (String × Str)} {cs : List Node} {s : Str} (h : Spells (.elem n as cs) s) (r : Str) :
    root [] (s ++ r) = some (⟨n, as, cs⟩, r) := by
  cases h with
  | @elem _ _ sa w b ps hn ha hs hp hj hw =>
    rw [show ('<' :: n.toList ++ sa ++ '>' :: b ++ '<' :: '/' :: n.toList ++ w ++ ['>']) ++ r =
      '<' :: (n.toList ++ (sa ++ ((if false then ['/', '>'] else ['>']) ++ (b ++ '<' :: '/' :: (n.toList ++ (w ++ '>' :: r)))))) by simp]
    rw [root_eq _ _ _ _ (next_tag false _ hn ha hs) (by simp; omega)]
    show root (⟨n, as, []⟩ :: []) _ = _
    rw [(root_joined hj (fun p hp' => ⟨hp p hp', spelled_reads (hp p hp')⟩) [] _).2,
      root_eq _ _ _ _ (next_end hw r hn) (by simp; omega)]
    simp only [List.nil_append, if_true]
  | @empty _ _ sa hn ha hs =>
    rw [show ('<' :: n.toList ++ sa ++ ['/', '>']) ++ r = '<' :: (n.toList ++ (sa ++ ((if true then ['/', '>'] else ['>']) ++ r))) by simp]
    rw [root_eq _ _ _ _ (next_tag true _ hn ha hs) (by simp; omega)]

/-- **C140.** However a document is spelled, it is parsed as the document. -/
theorem C140_parse {e : Element} {t : Str} (h : SpellsDoc e t) : parse t = some e := by
  obtain ⟨a, s, b, ha, hs, hb, hl⟩ := h
  have hr : root [] (a ++ s ++ b) = some (e, b) := by
    obtain ⟨r, hr⟩ := spelled_tag hs (fun h => h)
    rw [List.append_assoc, hr, List.cons_append, root_around ha, ← List.cons_append, ← hr]
    exact root_spelled hs b
  rw [parse, lines_of hl, hr]
  show (if nothing b then some e else none) = _
  rw [if_pos (nothing_around hb)]

/-! ## What the program writes is a spelling -/

theorem xml_char_esc {c : Char} (h : XmlChar c) {d : Char} (hd : d ∈ [c]) : XmlChar d := by rw [List.mem_singleton.1 hd]; exact h

theorem spells_attr_esc (v : Str) (h : AttrText v) : SpellsText (InQuotes '"') v (v.flatMap escAttr) := by
  induction v with
  | nil => exact .nil
  | cons c v ih =>
    have hc := h c (by simp)
    have ih := ih fun d hd => h d (by simp [hd])
    rw [List.flatMap_cons]
    unfold escAttr
    split_ifs with h1 h2 h3 h4 h5 h6 h7
    · subst h1; exact .ref .lt ih
    · subst h2; exact .ref .gt ih
    · subst h3; exact .ref .quot ih
    · subst h4; exact .ref .apos ih
    · subst h5; exact .ref .amp ih
    · subst h6; exact .ref (.hex (ds := ['A']) ((numeral_iff (by decide) _ _).2 (by decide)) hc.1) ih
    · subst h7; exact .ref (.hex (ds := ['D']) ((numeral_iff (by decide) _ _).2 (by decide)) hc.1) ih
    · exact .char ⟨hc.1, h1, h5, h7, h3, Or.inr ⟨hc.2, h6, rfl⟩⟩ ih

theorem spells_text_esc (v : Str) (h : PlainText v) : SpellsText InText v (v.flatMap escText) := by
  induction v with
  | nil => exact .nil
  | cons c v ih =>
    have hc := h c (by simp)
    have ih := ih fun d hd => h d (by simp [hd])
    rw [List.flatMap_cons]
    unfold escText
    split_ifs with h1 h2 h3
    · subst h1; exact .ref .lt ih
    · subst h2; exact .ref .gt ih
    · subst h3; exact .ref .amp ih
    · exact .char ⟨hc.1, h1, h3, hc.2, rfl⟩ ih

theorem spells_attrs_print (as : List (String × Str)) (h : ∀ a ∈ as, XmlName a.1 ∧ AttrText a.2) : SpellsAttrs as (as.flatMap printAttr) := by
  induction as with
  | nil => exact .nil (by simp [White])
  | cons a as ih =>
    have ha := h a (by simp)
    rw [List.flatMap_cons]
    refine .cons ?_ (ih fun b hb => h b (by simp [hb]))
    have := SpellsAttr.mk (w := [' ']) (w1 := []) (w2 := []) ha.1 (by simp) (by simp [White]) (by simp [White]) (by simp [White]) (Or.inl rfl) (spells_attr_esc a.2 ha.2)
    simpa [printAttr] using this

theorem white_lay {lay : Layout} (hl : Lays lay) (d : Nat) (cs : List Node) : White (lay.before d cs) ∧ White (lay.close d cs) :=
  ⟨fun c hc => (hl d cs).1 c (by simp [hc]), fun c hc => (hl d cs).1 c (by simp [hc])⟩

theorem isText_iff (c : Node) : IsText c ↔ ∃ s, c = .text s := by cases c <;> simp [IsText]

theorem joined_print (lay : Layout) (hl : Lays lay) (d e : Nat) (cs : List Node) (hs : Apart cs) : ∀ done,
    (∀ s t, done.getLast? = some (.text s) → cs.head? ≠ some (.text t)) →
    Joined (∃ s, done.getLast? = some (.text s)) (cs.map fun c => (c, printNode lay d c)) (printNodes lay d done cs ++ lay.close e (done ++ cs)) := by
  induction cs with
  | nil =>
    intro done _
    rw [printNodes_nil, List.append_nil, List.nil_append, List.map_nil]
    exact .nil (white_gap (white_lay hl e done).2) fun ⟨s, h⟩ => ((hl e done).2 s h).2
  | cons c cs ih =>
    intro done hd
    rw [printNodes_cons, List.map_cons]
    have hj := ih (apart_tail hs) (done ++ [c]) (by
      intro s t h1 h2
      simp only [List.getLast?_append, List.getLast?_singleton, Option.some_or, Option.some.injEq] at h1
      rw [h1] at hs
      exact hs 0 s t rfl (by cases cs with
        | nil => cases h2
        | cons x cs => simpa using h2))
    have hb : (∃ s, (done ++ [c]).getLast? = some (.text s)) = IsText c := by
      rw [isText_iff]; simp
    rw [hb] at hj
    rw [List.append_assoc, show done ++ c :: cs = done ++ [c] ++ cs by simp]
    refine .cons (w := if Node.isChars c then [] else lay.before d done) ?_ ?_ ?_ hj
    · split
      · exact gap_nil
      · exact white_gap (white_lay hl d done).1
    · rintro (⟨s, h⟩ | h)
      · split
        · rfl
        · exact ((hl d done).2 s h).1
      · obtain ⟨s, rfl⟩ := (isText_iff c).1 h
        rfl
    · rintro ⟨⟨s, h⟩, hc⟩
      obtain ⟨t, rfl⟩ := (isText_iff c).1 hc
      exact hd s t h rfl

theorem spells_print (lay : Layout) (hl : Lays lay) {c : Node} (h : Sayable c) : ∀ d, Spells c (printNode lay d c) := by
  induction h with
  | elem n as cs hn ha hc hs ih =>
    intro d
    cases cs with
    | nil =>
      rw [printNode_nil]
      exact .empty hn ha.1 (spells_attrs_print as ha.2)
    | cons c cs =>
      rw [printNode_cons]
      have := Spells.elem (ps := (c :: cs).map fun c => (c, printNode lay (d + 1) c)) (w := []) hn ha.1 (spells_attrs_print as ha.2)
        (fun p hp => by obtain ⟨x, hx, rfl⟩ := List.mem_map.1 hp; exact ih x hx (d + 1))
        (by have := joined_print lay hl (d + 1) d (c :: cs) hs [] (by simp); simpa using this) (by simp [White])
      simpa [Function.comp_def] using this
  | text s h hb => intro d; rw [printNode_text]; exact .text (spells_text_esc s h) hb
  | cdata s h he => intro d; rw [printNode_cdata]; exact .cdata h he
  | comment s h he => intro d; rw [printNode_comment]; exact .comment h he
  | pi s h he => intro d; rw [printNode_pi]; exact .pi h he

theorem lineEnds_self {s : Str} (h : '\r' ∉ s) : LineEnds s s := by
  induction s with
  | nil => exact .nil
  | cons c s ih =>
    simp only [List.mem_cons, not_or] at h
    exact .char (Ne.symm h.1) (ih h.2)

/-- **C140.** What the program writes is a spelling of the document, so that C97 is a case of this. -/
theorem C140_printed (lay : Layout) (hl : Lays lay) (e : Element) (h : Sayable e.node) : SpellsDoc e (print lay e) := by
  refine ⟨declaration ++ ['\n'], printNode lay 0 e.node, [], ?_, spells_print lay hl h 0, .gap gap_nil, ?_⟩
  · have := Around.pi (w := []) (s := "xml version=\"1.0\" encoding=\"UTF-8\"".toList) (r := ['\n']) gap_nil (by decide +kernel) (by decide +kernel)
      (.gap (white_gap (by simp [White])))
    simpa [declaration] using this
  · rw [show declaration ++ ['\n'] ++ printNode lay 0 e.node ++ [] = print lay e by simp [print]]
    apply lineEnds_self
    rw [print, List.mem_append, List.mem_cons, not_or, not_or]
    exact ⟨by decide +kernel, by decide, printed_cr lay hl _ h 0⟩

/-! ## C140 -/

/-- **C140.** Two files that are spellings of documents that say the same are read alike, to the same glyph or the same
error. -/
theorem C140_alike (mid : IOF → IOF → IOF) (pio : PlistIO D) (lay : Layout) (ped : Pedantry) {d e : Element} {s t : Str}
    (hd : SpellsDoc d s) (he : SpellsDoc e t) (h : SameDoc d e) :
    readText (PD := PD) mid pio (io lay) ped s = readText mid pio (io lay) ped t := by
  unfold readText
  rw [show (io lay).parse s = some d from C140_parse hd, show (io lay).parse t = some e from C140_parse he]
  exact C09_same_document mid pio ped d e h

/-- **C140.** No text is a spelling of two documents. -/
theorem C140_unambiguous {d e : Element} {s : Str} (hd : SpellsDoc d s) (he : SpellsDoc e s) : d = e :=
  Option.some.inj ((C140_parse hd).symm.trans (C140_parse he))

/-- **C140.** A saved glyph comes back from every spelling of its document, as if another program had tidied the file. -/
theorem C140_saved (mid : IOF → IOF → IOF) (pio : PlistIO D) (lay : Layout) (g : Glif PD D) (hs : Saveable pio g) :
    ∃ e g', glifXml pio g = .ok e ∧ Resaved g g' ∧ ∀ s, SpellsDoc e s → readText mid pio (io lay) {} s = .ok g' := by
  obtain ⟨g', hg, hr⟩ := C01_partial mid pio g hs
  obtain ⟨e, he, hg⟩ := bind_eq_ok.1 hg
  refine ⟨e, g', he, hr, fun s h => ?_⟩
  unfold readText
  rw [show (io lay).parse s = some e from C140_parse h]
  exact hg

/-- A text with single and double quotation marks, references, white space in tags and other ends of lines. -/
example : SpellsDoc ⟨"glyph", [("format", "2".toList), ("name", "A".toList)], [.comment " a ".toList]⟩
    "<?xml version='1.0'?>\r\n<glyph format = '2'\tname=\"&#65;\" >\r<!-- a --></glyph >\n".toList := by
  refine ⟨"<?xml version='1.0'?>\n".toList, "<glyph format = '2'\tname=\"&#65;\" >\n<!-- a --></glyph >".toList, "\n".toList, ?_, ?_, .gap (white_gap (by decide)), ?_⟩
  · exact .pi (w := []) (s := "xml version='1.0'".toList) (r := "\n".toList) gap_nil (by decide +kernel) (by decide +kernel) (.gap (white_gap (by decide)))
  · have h1 : SpellsAttr ("format", "2".toList) " format = '2'".toList :=
      .mk (w := [' ']) (w1 := [' ']) (w2 := [' ']) (q := '\'') (s := ['2']) (by decide) (by decide) (by decide) (by decide) (by decide) (Or.inr rfl)
        (.char (by decide) .nil)
    have h2 : SpellsAttr ("name", "A".toList) "\tname=\"&#65;\"".toList :=
      .mk (w := ['\t']) (w1 := []) (w2 := []) (q := '"') (s := "&#65;".toList) (by decide) (by decide) (by decide) (by decide) (by decide) (Or.inl rfl)
        (.ref (r := "&#65;".toList) (.dec (ds := ['6', '5']) ((numeral_iff (by decide) _ _).2 (by decide)) (by decide)) .nil)
    exact .elem (ps := [(.comment " a ".toList, "<!-- a -->".toList)]) (w := [' ']) (b := "\n<!-- a -->".toList)
      (sa := " format = '2'\tname=\"&#65;\" ".toList) (by decide) (by decide)
      (.cons h1 (.cons (t := [' ']) h2 (.nil (by decide))))
      (by intro p hp; rw [List.mem_singleton.1 hp]; exact .comment (s := " a ".toList) (by decide) (by decide))
      (.cons (w := ['\n']) (r := []) (white_gap (by decide)) (by simp [IsText]) (by simp [IsText]) (.nil gap_nil (by simp))) (by decide)
  · exact (lines_iff _ _).2 (by decide +kernel)

end GP
