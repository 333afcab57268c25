import Verif.Spec.XmlText
/-!
# Printing and parsing XML
-/
open Fl Fl.Text
namespace GP
namespace XmlText
open Spec

theorem allowed_iff (c : Char) : allowed c = true ↔ XmlChar c := by
  have h1 : (c = '\t') ↔ c.toNat = 0x9 := by rw [← Char.toNat_inj]; rfl
  have h2 : (c = '\n') ↔ c.toNat = 0xA := by rw [← Char.toNat_inj]; rfl
  have h3 : (c = '\r') ↔ c.toNat = 0xD := by rw [← Char.toNat_inj]; rfl
  simp only [allowed, XmlChar, Bool.or_eq_true, Bool.and_eq_true, beq_iff_eq, decide_eq_true_eq, bne_iff_ne, h1, h2, h3]
  tauto

theorem nameChar_iff (c : Char) (h : NameChar c) : nameChar c = true ∧ XmlChar c := by
  unfold NameChar at h
  unfold nameChar
  simp only [Bool.or_eq_true, beq_iff_eq, decide_eq_true_eq, Char.isAlphanum, Char.isAlpha, Char.isUpper, Char.isLower,
    Char.isDigit, Bool.and_eq_true, allowed_iff]
  simp only [Char.le_def, List.mem_cons, List.not_mem_nil, or_false, XmlChar, UInt32.le_iff_toNat_le] at h ⊢
  simp only [← Char.toNat_inj, Char.toNat] at h ⊢
  simp at h ⊢
  omega

theorem nameChar_not (c : Char) (h : nameChar c = true) : c ≠ '!' ∧ c ≠ '?' ∧ c ≠ '/' ∧ c ≠ '<' ∧ c ≠ '=' ∧ c ≠ '>' ∧ space c = false ∧ c ≠ '"' := by
  refine ⟨?_, ?_, ?_, ?_, ?_, ?_, ?_, ?_⟩
  all_goals first | (rintro rfl; revert h; decide) | skip
  rw [Bool.eq_false_iff]
  intro hs
  simp only [space, Bool.or_eq_true, beq_iff_eq] at hs
  rcases hs with ((rfl | rfl) | rfl) | rfl <;> revert h <;> decide

theorem lines_eq (s : Str) (h : '\r' ∉ s) : lines s = s := by
  induction s with
  | nil => rfl
  | cons c s ih =>
    simp only [List.mem_cons, not_or] at h
    unfold lines
    split
    · next h1 => cases h1
    · next h1 => cases h1; exact absurd rfl h.1
    · next h1 => cases h1; exact absurd rfl h.1
    · next h1 => cases h1; rw [ih h.2]

theorem cutAt_one (q : Char) (s r : Str) (h : q ∉ s) : cutAt [q] (s ++ q :: r) = some (s, r) := by
  induction s with
  | nil => simp [cutAt]
  | cons c s ih =>
    simp only [List.mem_cons, not_or] at h
    rw [List.cons_append, cutAt, if_neg (by simp [h.1]), ih h.2]
    rfl

theorem cutAt_cdata (s r : Str) (h : ¬ [']', ']', '>'] <:+: s) : cutAt [']', ']', '>'] (s ++ ']' :: ']' :: '>' :: r) = some (s, r) := by
  induction s with
  | nil => simp [cutAt]
  | cons c s ih =>
    have h1 : ¬ [']', ']', '>'] <:+: s := fun hh => h (List.infix_cons hh)
    rw [List.cons_append, cutAt, if_neg, ih h1]
    · rfl
    · intro hp
      rcases s with _ | ⟨d, _ | ⟨e, s⟩⟩
      · simp at hp
      · simp at hp
      · simp at hp
        obtain ⟨rfl, rfl, rfl⟩ := hp
        exact h ⟨[], s, rfl⟩

theorem cutAt_pi (s r : Str) (h : ¬ ['?', '>'] <:+: s) : cutAt ['?', '>'] (s ++ '?' :: '>' :: r) = some (s, r) := by
  induction s with
  | nil => simp [cutAt]
  | cons c s ih =>
    have h1 : ¬ ['?', '>'] <:+: s := fun hh => h (List.infix_cons hh)
    rw [List.cons_append, cutAt, if_neg, ih h1]
    · rfl
    · intro hp
      rcases s with _ | ⟨d, s⟩
      · simp at hp
      · simp at hp
        obtain ⟨rfl, rfl⟩ := hp
        exact h ⟨[], s, rfl⟩

theorem cutAt_comment (s r : Str) (h : ¬ ['-', '-'] <:+: s ++ ['-']) : cutAt ['-', '-'] (s ++ '-' :: '-' :: r) = some (s, r) := by
  induction s with
  | nil => simp [cutAt]
  | cons c s ih =>
    have h1 : ¬ ['-', '-'] <:+: s ++ ['-'] := fun hh => h (List.infix_cons hh)
    rw [List.cons_append, cutAt, if_neg, ih h1]
    · rfl
    · intro hp
      rcases s with _ | ⟨d, s⟩
      · simp at hp
        subst hp
        exact h ⟨[], [], rfl⟩
      · simp at hp
        obtain ⟨rfl, rfl⟩ := hp
        exact h ⟨[], s ++ ['-'], by simp⟩

theorem decode_attr_one (c : Char) (s : Str) (h : XmlChar c) (ht : c ≠ '\t') :
    decode oneAttr none (escAttr c ++ s) = (decode oneAttr none s).map (c :: ·) := by
  unfold escAttr
  split_ifs with h1 h2 h3 h4 h5 h6 h7
  all_goals first
    | (subst_vars
       show (do let c' ← _; let s' ← decode oneAttr none s; some (c' :: s')) = _
       simp only [List.nil_append, List.cons_append, entity]
       cases decode oneAttr none s <;> rfl)
    | skip
  rw [List.singleton_append, decode, if_neg h5]
  have ho : oneAttr c = some c := by
    unfold oneAttr
    rw [if_neg h1]
    split
    · next hs =>
      simp only [space, Bool.or_eq_true, beq_iff_eq] at hs
      rcases hs with ((rfl | rfl) | rfl) | rfl <;> simp_all
    · rw [if_pos ((allowed_iff c).2 h)]
  rw [ho]
  cases decode oneAttr none s <;> rfl

theorem decode_text_one (c : Char) (s : Str) (h : XmlChar c) :
    decode oneText none (escText c ++ s) = (decode oneText none s).map (c :: ·) := by
  unfold escText
  split_ifs with h1 h2 h3
  all_goals first
    | (subst_vars
       show (do let c' ← _; let s' ← decode oneText none s; some (c' :: s')) = _
       simp only [List.nil_append, List.cons_append, entity]
       cases decode oneText none s <;> rfl)
    | skip
  rw [List.singleton_append, decode, if_neg h3,
    show oneText c = some c by unfold oneText; rw [if_neg h1, if_pos ((allowed_iff c).2 h)]]
  cases decode oneText none s <;> rfl

theorem decode_attr (v : Str) (h : AttrText v) : decode oneAttr none (v.flatMap escAttr) = some v := by
  induction v with
  | nil => rfl
  | cons c v ih =>
    rw [List.flatMap_cons, decode_attr_one c _ (h c (by simp)).1 (h c (by simp)).2, ih fun d hd => h d (by simp [hd])]
    rfl

theorem decode_text (v : Str) (h : PlainText v) : decode oneText none (v.flatMap escText) = some v := by
  induction v with
  | nil => rfl
  | cons c v ih =>
    rw [List.flatMap_cons, decode_text_one c _ (h c (by simp)).1, ih fun d hd => h d (by simp [hd])]
    rfl

theorem decode_blank (w : Str) (h : ∀ c ∈ w, c = ' ' ∨ c = '\t' ∨ c = '\n') : decode oneText none w = some w := by
  induction w with
  | nil => rfl
  | cons c w ih =>
    rw [decode, if_neg (by rintro rfl; simpa using h '&' (by simp)), ih fun d hd => h d (by simp [hd])]
    rcases h c (by simp) with rfl | rfl | rfl <;> rfl

theorem esc_attr_mem (v : Str) (d : Char) (h : d ∈ v.flatMap escAttr) : d ≠ '"' ∧ d ≠ '\r' ∧ d ≠ '<' := by
  rw [List.mem_flatMap] at h
  obtain ⟨c, -, hd⟩ := h
  unfold escAttr at hd
  split_ifs at hd with h1 h2 h3 h4 h5 h6 h7
  all_goals first
    | (rw [List.mem_singleton] at hd; subst hd; exact ⟨h3, h7, h1⟩)
    | (refine ⟨?_, ?_, ?_⟩ <;> (rintro rfl; revert hd; decide))

theorem esc_text_mem (v : Str) (d : Char) (h : d ∈ v.flatMap escText) : d ≠ '<' ∧ (d = '\r' → '\r' ∈ v) := by
  rw [List.mem_flatMap] at h
  obtain ⟨c, hc, hd⟩ := h
  unfold escText at hd
  split_ifs at hd with h1 h2 h3
  all_goals first
    | (rw [List.mem_singleton] at hd; subst hd; exact ⟨h1, fun e => e ▸ hc⟩)
    | (refine ⟨?_, ?_⟩ <;> (rintro rfl; exfalso; revert hd; decide))

theorem takeWhile_all {α : Type} (p : α → Bool) (l : List α) (c : α) (r : List α) (h : ∀ x ∈ l, p x = true) (hc : p c = false) :
    (l ++ c :: r).takeWhile p = l ∧ (l ++ c :: r).dropWhile p = c :: r := by
  induction l with
  | nil => simp [hc]
  | cons x l ih =>
    have h1 := ih fun y hy => h y (by simp [hy])
    simp [h x (by simp), h1.1, h1.2]

theorem name_eq (n : String) (h : XmlName n) (c : Char) (r : Str) (hc : nameChar c = false) :
    name (n.toList ++ c :: r) = some (n.toList, c :: r) := by
  have ht := takeWhile_all nameChar n.toList c r (fun x hx => (nameChar_iff x (h.2 x hx)).1) hc
  unfold name
  simp only [ht.1, ht.2]
  rw [if_neg]
  rw [List.isEmpty_iff]
  exact h.1

theorem name_cons (n : String) (h : XmlName n) : ∃ c l, n.toList = c :: l ∧ nameChar c = true := by
  obtain ⟨h1, h2⟩ := h
  cases hn : n.toList with
  | nil => exact absurd hn h1
  | cons c l => exact ⟨c, l, rfl, (nameChar_iff c (h2 c (by rw [hn]; simp))).1⟩

theorem value_eq (v : Str) (h : AttrText v) (r : Str) : value ('"' :: v.flatMap escAttr ++ '"' :: r) = some (v, r) := by
  show (do let (w, r) ← cutAt ['"'] (v.flatMap escAttr ++ '"' :: r); some (← decode oneAttr none w, r)) = _
  rw [cutAt_one _ _ _ fun hm => (esc_attr_mem v _ hm).1 rfl]
  show (do some (← decode oneAttr none (v.flatMap escAttr), r)) = _
  rw [decode_attr v h]
  rfl

theorem attrs_eq (as got : List (String × Str)) (h : ∀ a ∈ as, XmlName a.1 ∧ AttrText a.2) (hn : ((got ++ as).map (·.1)).Nodup)
    (e : Bool) (r : Str) (fuel : Nat) (hf : as.length < fuel) :
    attrs fuel got (as.flatMap printAttr ++ (if e then "/>".toList else ['>']) ++ r) = some (got ++ as, e, r) := by
  induction as generalizing got fuel with
  | nil =>
    cases fuel with
    | zero => simp at hf
    | succ fuel => cases e <;> simp [attrs, space]
  | cons a as ih =>
    cases fuel with
    | zero => simp at hf
    | succ fuel =>
      obtain ⟨k, v⟩ := a
      have ha := h _ (List.mem_cons_self ..)
      obtain ⟨c, l, hk, hc⟩ := name_cons k ha.1
      have hcn := nameChar_not c hc
      set rest := as.flatMap printAttr ++ (if e then "/>".toList else ['>']) ++ r with hrest
      have hs : ((k, v) :: as).flatMap printAttr ++ (if e then "/>".toList else ['>']) ++ r =
          ' ' :: (k.toList ++ '=' :: ('"' :: v.flatMap escAttr ++ '"' :: rest)) := by
        rw [hrest, List.flatMap_cons, printAttr]
        simp
      rw [hs, attrs]
      have h1 : (' ' :: (k.toList ++ '=' :: ('"' :: v.flatMap escAttr ++ '"' :: rest))).dropWhile space =
          k.toList ++ '=' :: ('"' :: v.flatMap escAttr ++ '"' :: rest) := by
        rw [hk, List.dropWhile_cons_of_pos (by rfl), List.cons_append, List.dropWhile_cons_of_neg (by simp [hcn.2.2.2.2.2.2.1])]
      rw [h1]
      split
      · next h2 => rw [hk, List.cons_append, List.cons.injEq] at h2; exact absurd h2.1 hcn.2.2.2.2.2.1
      · next h2 => rw [hk, List.cons_append, List.cons.injEq] at h2; exact absurd h2.1 hcn.2.2.1
      · rw [if_neg (by simp [space]), name_eq k ha.1 '=' _ (by decide)]
        show (match ('=' :: ('"' :: v.flatMap escAttr ++ '"' :: rest)).dropWhile space with
          | '=' :: r => _
          | _ => none) = _
        rw [List.dropWhile_cons_of_neg (by decide)]
        show (do let (v, r) ← value (('"' :: v.flatMap escAttr ++ '"' :: rest).dropWhile space); _) = _
        rw [show ('"' :: v.flatMap escAttr ++ '"' :: rest).dropWhile space = '"' :: v.flatMap escAttr ++ '"' :: rest from rfl,
          value_eq v ha.2]
        show (if got.any (·.1 == String.ofList k.toList) then none else attrs fuel (got ++ [(String.ofList k.toList, v)]) rest) = _
        rw [String.ofList_toList, if_neg, ih (got ++ [(k, v)]) (fun a ha => h a (by simp [ha])) (by simpa using hn) fuel
          (by simp at hf; omega)]
        · simp
        · intro hany
          rw [List.any_eq_true] at hany
          obtain ⟨b, hb, he⟩ := hany
          rw [beq_iff_eq] at he
          simp only [List.map_append, List.map_cons, List.nodup_append] at hn
          exact hn.2.2 _ (List.mem_map.2 ⟨b, hb, rfl⟩) k (by simp) he

theorem printAttrs_length (as : List (String × Str)) : as.length ≤ (as.flatMap printAttr).length := by
  induction as with
  | nil => simp
  | cons a as ih => rw [List.flatMap_cons, printAttr, List.length_append]; simp only [List.length_cons, List.cons_append]; omega

/-- What comes after the name in a start tag is no letter. -/
theorem after_name (as : List (String × Str)) (e : Bool) (r : Str) :
    ∃ c l, nameChar c = false ∧ as.flatMap printAttr ++ (if e then "/>".toList else ['>']) ++ r = c :: l := by
  cases as with
  | nil => cases e
           · exact ⟨'>', r, by decide, rfl⟩
           · exact ⟨'/', '>' :: r, by decide, rfl⟩
  | cons a as => exact ⟨' ', _, by decide, rfl⟩

theorem next_start (n : String) (as : List (String × Str)) (e : Bool) (r : Str) (hn : XmlName n) (ha : XmlAttrs as) :
    next ('<' :: (n.toList ++ (as.flatMap printAttr ++ (if e then "/>".toList else ['>']) ++ r))) = some (.start n as e, r) := by
  obtain ⟨c, l, hk, hc⟩ := name_cons n hn
  have hcn := nameChar_not c hc
  obtain ⟨c', l', hc', hl'⟩ := after_name as e r
  have hname := name_eq n hn c' l' hc'
  rw [← hl'] at hname
  have hat := attrs_eq as [] ha.2 (by simpa using ha.1) e r
    ((as.flatMap printAttr ++ (if e then "/>".toList else ['>']) ++ r).length + 1)
    (by have := printAttrs_length as; simp only [List.length_append]; omega)
  have hgo : (do
      let (n, r) ← name (n.toList ++ (as.flatMap printAttr ++ (if e then "/>".toList else ['>']) ++ r))
      let (as, e, r) ← attrs (r.length + 1) [] r
      some (Tok.start (String.ofList n) as e, r)) = some (.start n as e, r) := by
    rw [hname]
    show (do let (as, e, r) ← attrs _ [] _; some (Tok.start (String.ofList n.toList) as e, r)) = _
    rw [hat, String.ofList_toList]
    rfl
  unfold next
  split
  · next h => cases h
  · next h => rw [hk, List.cons_append, List.cons.injEq, List.cons.injEq] at h; exact absurd h.2.1 hcn.1
  · next h => rw [hk, List.cons_append, List.cons.injEq, List.cons.injEq] at h; exact absurd h.2.1 hcn.1
  · next h => rw [hk, List.cons_append, List.cons.injEq, List.cons.injEq] at h; exact absurd h.2.1 hcn.2.1
  · next h => rw [hk, List.cons_append, List.cons.injEq, List.cons.injEq] at h; exact absurd h.2.1 hcn.2.2.1
  · next h => rw [List.cons.injEq] at h; rw [← h.2]; exact hgo
  · next h3 h => rw [List.cons.injEq] at h; exact absurd h.1.symm h3

theorem next_stop (n : String) (r : Str) (hn : XmlName n) : next ('<' :: '/' :: (n.toList ++ '>' :: r)) = some (.stop n, r) := by
  show (do
    let (n, r) ← name (n.toList ++ '>' :: r)
    match r.dropWhile space with
    | '>' :: r => some (Tok.stop (String.ofList n), r)
    | _ => none) = _
  rw [name_eq n hn '>' r (by decide)]
  show (match ('>' :: r).dropWhile space with
    | '>' :: r => some (Tok.stop (String.ofList n.toList), r)
    | _ => none) = _
  rw [List.dropWhile_cons_of_neg (by decide), String.ofList_toList]
  rfl

theorem all_allowed (s : Str) (h : PlainText s) : s.all allowed = true := by
  rw [List.all_eq_true]
  exact fun c hc => (allowed_iff c).2 (h c hc).1

theorem next_comment (s r : Str) (h : PlainText s) (he : ¬ "--".toList <:+: s ++ ['-']) :
    next ("<!--".toList ++ s ++ "-->".toList ++ r) = some (.node (.comment s), r) := by
  rw [show "<!--".toList ++ s ++ "-->".toList ++ r = '<' :: '!' :: '-' :: '-' :: (s ++ '-' :: '-' :: '>' :: r) by simp]
  show (do
    let (c, r) ← cutAt ['-', '-'] (s ++ '-' :: '-' :: '>' :: r)
    match r with
    | '>' :: r => if c.all allowed then some (Tok.node (.comment c), r) else none
    | _ => none) = _
  rw [cutAt_comment s _ he]
  show (if s.all allowed then _ else _) = _
  rw [if_pos (all_allowed s h)]

theorem next_cdata (s r : Str) (h : PlainText s) (he : ¬ "]]>".toList <:+: s) :
    next ("<![CDATA[".toList ++ s ++ "]]>".toList ++ r) = some (.node (.cdata s), r) := by
  rw [show "<![CDATA[".toList ++ s ++ "]]>".toList ++ r =
    '<' :: '!' :: '[' :: 'C' :: 'D' :: 'A' :: 'T' :: 'A' :: '[' :: (s ++ ']' :: ']' :: '>' :: r) by simp]
  show (do
    let (c, r) ← cutAt [']', ']', '>'] (s ++ ']' :: ']' :: '>' :: r)
    if c.all allowed then some (Tok.node (.cdata c), r) else none) = _
  rw [cutAt_cdata s _ he]
  show (if s.all allowed then _ else _) = _
  rw [if_pos (all_allowed s h)]

theorem next_pi (s r : Str) (h : PlainText s) (he : ¬ "?>".toList <:+: s) :
    next ("<?".toList ++ s ++ "?>".toList ++ r) = some (.node (.pi s), r) := by
  rw [show "<?".toList ++ s ++ "?>".toList ++ r = '<' :: '?' :: (s ++ '?' :: '>' :: r) by simp]
  show (do
    let (c, r) ← cutAt ['?', '>'] (s ++ '?' :: '>' :: r)
    if c.all allowed then some (Tok.node (.pi c), r) else none) = _
  rw [cutAt_pi s _ he]
  show (if s.all allowed then _ else _) = _
  rw [if_pos (all_allowed s h)]

/-- Characters before a tag. -/
theorem next_chars (w t : Str) (r : Str) (hw : w ≠ []) (hl : ∀ c ∈ w, c ≠ '<') (hd : decode oneText none w = some t) :
    next (w ++ '<' :: r) = some (.node (.text t), '<' :: r) := by
  have ht := takeWhile_all (· != '<') w '<' r (fun x hx => by simpa using hl x hx) (by rfl)
  have hgo : (do
      let t ← decode oneText none ((w ++ '<' :: r).takeWhile (· != '<'))
      some (Tok.node (.text t), (w ++ '<' :: r).dropWhile (· != '<'))) = some (.node (.text t), '<' :: r) := by
    rw [ht.1, ht.2, hd]
    rfl
  obtain ⟨c, w, rfl⟩ := List.exists_cons_of_ne_nil hw
  have hc := hl c (by simp)
  unfold next
  split
  · next h => cases h
  · next h => rw [List.cons_append, List.cons.injEq] at h; exact absurd h.1 hc
  · next h => rw [List.cons_append, List.cons.injEq] at h; exact absurd h.1 hc
  · next h => rw [List.cons_append, List.cons.injEq] at h; exact absurd h.1 hc
  · next h => rw [List.cons_append, List.cons.injEq] at h; exact absurd h.1 hc
  · next h => rw [List.cons_append, List.cons.injEq] at h; exact absurd h.1 hc
  · next h => rw [← h]; exact hgo

/-! ## The printer, case by case -/

theorem printNode_nil (lay : Layout) (d : Nat) (n : String) (as : List (String × Str)) :
    printNode lay d (.elem n as []) = '<' :: n.toList ++ as.flatMap printAttr ++ "/>".toList := by
  unfold printNode
  rfl

theorem printNode_elem (lay : Layout) (d : Nat) (n : String) (as : List (String × Str)) (cs : List Node) :
    printNode lay d (.elem n as cs) = '<' :: n.toList ++ as.flatMap printAttr ++
      (if cs.isEmpty then "/>".toList
        else '>' :: printNodes lay (d + 1) [] cs ++ lay.close d cs ++ '<' :: '/' :: n.toList ++ ['>']) := by
  conv => lhs; unfold printNode

theorem printNode_cons (lay : Layout) (d : Nat) (n : String) (as : List (String × Str)) (c : Node) (cs : List Node) :
    printNode lay d (.elem n as (c :: cs)) = '<' :: n.toList ++ as.flatMap printAttr ++
      ('>' :: printNodes lay (d + 1) [] (c :: cs) ++ lay.close d (c :: cs) ++ '<' :: '/' :: n.toList ++ ['>']) :=
  (printNode_elem lay d n as (c :: cs)).trans (congrArg _ (if_neg (by simp)))

theorem printNode_text (lay : Layout) (d : Nat) (s : Str) : printNode lay d (.text s) = s.flatMap escText := by unfold printNode; rfl

theorem printNode_cdata (lay : Layout) (d : Nat) (s : Str) :
    printNode lay d (.cdata s) = "<![CDATA[".toList ++ s ++ "]]>".toList := by unfold printNode; rfl

theorem printNode_comment (lay : Layout) (d : Nat) (s : Str) :
    printNode lay d (.comment s) = "<!--".toList ++ s ++ "-->".toList := by unfold printNode; rfl

theorem printNode_pi (lay : Layout) (d : Nat) (s : Str) :
    printNode lay d (.pi s) = "<?".toList ++ s ++ "?>".toList := by unfold printNode; rfl

theorem printNodes_nil (lay : Layout) (d : Nat) (done : List Node) : printNodes lay d done [] = [] := by unfold printNodes; rfl

theorem printNodes_cons (lay : Layout) (d : Nat) (done : List Node) (c : Node) (cs : List Node) :
    printNodes lay d done (c :: cs) =
      (if Node.isChars c then [] else lay.before d done) ++ printNode lay d c ++ printNodes lay d (done ++ [c]) cs := by
  rw [printNodes]

attribute [local irreducible] printNode printNodes

/-! ## The whole document -/

theorem root_eq (st : List Frame) (s : Str) (t : Tok) (r : Str) (h : next s = some (t, r)) (hl : r.length < s.length) :
    root st s =
      match (generalizing := false) t, st with
      | .start n as true, [] => some (⟨n, as, []⟩, r)
      | .start n as true, f :: st => root (f.push (.elem n as []) :: st) r
      | .start n as false, st => root (⟨n, as, []⟩ :: st) r
      | .stop _, [] => none
      | .stop n, [f] => if n = f.name then some (⟨f.name, f.attrs, f.children⟩, r) else none
      | .stop n, f :: g :: st =>
        if n = f.name then root (g.push (.elem f.name f.attrs f.children) :: st) r else none
      | .node c, [] => if Node.isChars c && kept c then none else root [] r
      | .node c, f :: st => if kept c then root (f.push c :: st) r else root (f :: st) r := by
  rw [root, h]
  simp only [hl, if_true]
  rfl

theorem blank_kept (w : Str) (h : ∀ c ∈ w, c = ' ' ∨ c = '\t' ∨ c = '\n') : kept (.text w) = false := by
  simp only [kept, Bool.not_eq_false', List.all_eq_true]
  intro c hc
  rcases h c hc with rfl | rfl | rfl <;> rfl

/-- White space before a tag means nothing. -/
theorem root_blank (st : List Frame) (w r : Str) (h : ∀ c ∈ w, c = ' ' ∨ c = '\t' ∨ c = '\n') :
    root st (w ++ '<' :: r) = root st ('<' :: r) := by
  by_cases hw : w = []
  · rw [hw, List.nil_append]
  · rw [root_eq st _ _ _ (next_chars w w r hw (fun c hc => by rcases h c hc with rfl | rfl | rfl <;> decide) (decode_blank w h))
      (by have := List.length_pos_iff.2 hw; simp; omega)]
    cases st with
    | nil => simp [Node.isChars, blank_kept w h]
    | cons f st => simp [blank_kept w h]

/-- The first node is read as the second; after text there must be a tag. -/
def ReadsAs (lay : Layout) (c c' : Node) : Prop :=
  ∀ d f st r, (∀ s, c = .text s → ∃ r', r = '<' :: r') → root (f :: st) (printNode lay d c ++ r) = root (f.push c' :: st) r

theorem printed_tag (lay : Layout) (d : Nat) (c : Node) (h : ∀ s, c ≠ .text s) : ∃ r, printNode lay d c = '<' :: r := by
  cases c with
  | elem n as cs =>
    cases cs with
    | nil => exact ⟨_, printNode_nil ..⟩
    | cons c cs => exact ⟨_, printNode_cons ..⟩
  | text s => exact absurd rfl (h s)
  | cdata s => exact ⟨_, printNode_cdata ..⟩
  | comment s => exact ⟨_, printNode_comment ..⟩
  | pi s => exact ⟨_, printNode_pi ..⟩

theorem isChars_tag (c : Node) (h : Node.isChars c = false) : ∀ s, c ≠ .text s := by
  rintro s rfl
  cases h

theorem apart_tail {c : Node} {cs : List Node} (h : Apart (c :: cs)) : Apart cs :=
  fun i s t hi ht => h (i + 1) s t (by simpa using hi) (by simpa using ht)

/-- After a text, and before the end of the element, comes a tag. -/
theorem after_text (lay : Layout) (hl : Lays lay) (d e : Nat) (done cs : List Node) (s : Str) (h : Apart (.text s :: cs)) (r : Str) :
    ∃ r', printNodes lay d (done ++ [.text s]) cs ++ lay.close e (done ++ [.text s] ++ cs) ++ '<' :: r = '<' :: r' := by
  cases cs with
  | nil =>
    have := ((hl e (done ++ [.text s])).2 s (by simp)).2
    rw [List.append_nil, this, printNodes_nil]
    exact ⟨r, rfl⟩
  | cons c cs =>
    have hc : ∀ t, c ≠ .text t := fun t ht => h 0 s t rfl (by simp [ht])
    obtain ⟨r', hr⟩ := printed_tag lay d c hc
    have hb : lay.before d (done ++ [.text s]) = [] := ((hl d (done ++ [.text s])).2 s (by simp)).1
    rw [printNodes_cons, hb, ite_self, hr]
    exact ⟨_, rfl⟩

theorem root_children (lay : Layout) (hl : Lays lay) (n : String) (as : List (String × Str)) (st : List Frame) (d e : Nat)
    (ps : List (Node × Node)) (hc : ∀ p ∈ ps, ReadsAs lay p.1 p.2) (hs : Apart (ps.map (·.1))) (done done' : List Node) (r : Str) :
    root (⟨n, as, done'⟩ :: st) (printNodes lay d done (ps.map (·.1)) ++ lay.close e (done ++ ps.map (·.1)) ++ '<' :: r) =
      root (⟨n, as, done' ++ ps.map (·.2)⟩ :: st) ('<' :: r) := by
  induction ps generalizing done done' with
  | nil =>
    rw [List.map_nil, List.map_nil, printNodes_nil, List.nil_append, List.append_nil, List.append_nil,
      root_blank _ _ _ fun c h => (hl e done).1 c (by simp [h])]
  | cons p ps ih =>
    obtain ⟨c, c'⟩ := p
    have hone := hc (c, c') (by simp)
    rw [List.map_cons] at hs
    rw [List.map_cons, List.map_cons]
    have ih := ih (fun c h => hc c (by simp [h])) (apart_tail hs) (done ++ [c]) (done' ++ [c'])
    simp only at hone hs ⊢
    rw [show done ++ c :: ps.map (·.1) = done ++ [c] ++ ps.map (·.1) by simp,
      show done' ++ c' :: ps.map (·.2) = done' ++ [c'] ++ ps.map (·.2) by simp]
    rw [← ih, printNodes_cons, List.append_assoc, List.append_assoc, List.append_assoc, ← List.append_assoc (printNodes ..)]
    have hstep : root (⟨n, as, done'⟩ :: st) (printNode lay d c ++ (printNodes lay d (done ++ [c]) (ps.map (·.1)) ++
        lay.close e (done ++ [c] ++ ps.map (·.1)) ++ '<' :: r)) = _ := hone d ⟨n, as, done'⟩ st _ (by
      rintro s rfl
      exact after_text lay hl d e done (ps.map (·.1)) s hs r)
    split
    · rw [List.nil_append, hstep]
      rfl
    · next hch =>
      obtain ⟨r', hr⟩ := printed_tag lay d c (isChars_tag c (by simpa using hch))
      rw [hr, List.cons_append, root_blank _ _ _ fun x h => (hl d done).1 x (by simp [h]), ← List.cons_append, ← hr, hstep]
      rfl

theorem print_elem (lay : Layout) (d : Nat) (n : String) (as : List (String × Str)) (c : Node) (cs : List Node) (r : Str) :
    printNode lay d (.elem n as (c :: cs)) ++ r =
      '<' :: (n.toList ++ (as.flatMap printAttr ++ (if false then "/>".toList else ['>']) ++
        (printNodes lay (d + 1) [] (c :: cs) ++ lay.close d ([] ++ c :: cs) ++ '<' :: '/' :: (n.toList ++ '>' :: r)))) := by
  rw [printNode_cons]
  simp

theorem print_empty (lay : Layout) (d : Nat) (n : String) (as : List (String × Str)) (r : Str) :
    printNode lay d (.elem n as []) ++ r =
      '<' :: (n.toList ++ (as.flatMap printAttr ++ (if true then "/>".toList else ['>']) ++ r)) := by
  rw [printNode_nil]
  simp

/-- The element is closed after its children have been read. -/
theorem reads_elem (lay : Layout) (hl : Lays lay) (n : String) (as : List (String × Str)) (ps : List (Node × Node)) (hn : XmlName n)
    (ha : XmlAttrs as) (hc : ∀ p ∈ ps, ReadsAs lay p.1 p.2) (hs : Apart (ps.map (·.1))) :
    ReadsAs lay (.elem n as (ps.map (·.1))) (.elem n as (ps.map (·.2))) := by
  intro d f st r _
  cases ps with
  | nil =>
    rw [List.map_nil, List.map_nil, print_empty, root_eq _ _ _ _ (next_start n as true r hn ha) (by simp; omega)]
  | cons p ps =>
    have hk := root_children lay hl n as (f :: st) (d + 1) d (p :: ps) hc hs [] [] ('/' :: (n.toList ++ '>' :: r))
    rw [List.map_cons] at hk ⊢
    rw [print_elem, root_eq _ _ _ _ (next_start n as false _ hn ha) (by simp; omega)]
    show root (⟨n, as, []⟩ :: f :: st) _ = _
    rw [hk, root_eq _ _ _ _ (next_stop n r hn) (by simp; omega)]
    simp only [if_true, List.nil_append]

theorem map_pair (cs : List Node) : (cs.map fun c => (c, c)).map (·.1) = cs ∧ (cs.map fun c => (c, c)).map (·.2) = cs := by
  constructor <;> simp [Function.comp_def]

theorem reads (lay : Layout) (hl : Lays lay) (c : Node) (h : Sayable c) : ReadsAs lay c c := by
  induction h with
  | elem n as cs hn ha hc hs ih =>
    have := reads_elem lay hl n as (cs.map fun c => (c, c)) hn ha (by
      intro p hp
      obtain ⟨c, hc', rfl⟩ := List.mem_map.1 hp
      exact ih c hc') (by rw [(map_pair cs).1]; exact hs)
    rw [(map_pair cs).1, (map_pair cs).2] at this
    exact this
  | text s h hb =>
    intro d f st r hr
    obtain ⟨r, rfl⟩ := hr s rfl
    have hk : kept (.text s) = true := by
      simp only [kept, Bool.not_eq_true', Bool.eq_false_iff]
      intro hall
      apply hb
      intro c hc
      have := List.all_eq_true.1 hall c hc
      simp only [space, Bool.or_eq_true, beq_iff_eq] at this
      tauto
    have hne : s.flatMap escText ≠ [] := by
      intro he
      apply hb
      intro c hc
      have := List.flatMap_eq_nil_iff.1 he c hc
      unfold escText at this
      split_ifs at this <;> simp at this
    rw [printNode_text, root_eq _ _ _ _ (next_chars _ s r hne (fun c hc => (esc_text_mem s c hc).1) (decode_text s h))
      (by have := List.length_pos_iff.2 hne; rw [List.length_append]; omega)]
    simp only [hk, if_true]
  | cdata s h he =>
    intro d f st r _
    rw [printNode_cdata, root_eq _ _ _ _ (next_cdata s r h he) (by simp; omega)]
    rfl
  | comment s h he =>
    intro d f st r _
    rw [printNode_comment, root_eq _ _ _ _ (next_comment s r h he) (by simp; omega)]
    rfl
  | pi s h he =>
    intro d f st r _
    rw [printNode_pi, root_eq _ _ _ _ (next_pi s r h he) (by simp; omega)]
    rfl

theorem text_blank (s : Str) (h : Blank s) : s.flatMap escText = s := by
  induction s with
  | nil => rfl
  | cons c s ih =>
    rw [List.flatMap_cons, ih fun d hd => h d (by simp [hd])]
    rcases h c (by simp) with rfl | rfl | rfl | rfl <;> rfl

theorem reads_blank (lay : Layout) (hl : Lays lay) (n : String) (as : List (String × Str)) (s : Str) (hn : XmlName n)
    (ha : XmlAttrs as) (h : PlainText s) (hb : Blank s) : ReadsAs lay (.elem n as [.text s]) (.elem n as []) := by
  intro d f st r _
  have hs : ∀ c ∈ s, c = ' ' ∨ c = '\t' ∨ c = '\n' := by
    intro c hc
    rcases hb c hc with h1 | h1 | h1 | h1
    · exact Or.inl h1
    · exact Or.inr (Or.inl h1)
    · exact Or.inr (Or.inr h1)
    · exact absurd h1 (h c hc).2
  rw [print_elem, root_eq _ _ _ _ (next_start n as false _ hn ha) (by simp; omega)]
  show root (⟨n, as, []⟩ :: f :: st) _ = _
  rw [printNodes_cons, printNodes_nil, printNode_text, text_blank s hb, ((hl d ([] ++ [Node.text s])).2 s rfl).2,
    show (if Node.isChars (.text s) = true then [] else lay.before (d + 1) []) = [] from rfl, List.append_nil, List.append_nil,
    List.nil_append, root_blank _ _ _ hs, root_eq _ _ _ _ (next_stop n r hn) (by simp; omega)]
  simp only [if_true]

theorem heard_reads (lay : Layout) (hl : Lays lay) (c c' : Node) (h : Heard c c') : ReadsAs lay c c' := by
  induction h with
  | elem n as ps hn ha hc hs ih => exact reads_elem lay hl n as ps hn ha ih hs
  | blank n as s hn ha h hb => exact reads_blank lay hl n as s hn ha h hb
  | same c h => exact reads lay hl c h

theorem root_document (lay : Layout) (hl : Lays lay) (e : Element) (ps : List (Node × Node)) (hk : e.children = ps.map (·.1))
    (hn : XmlName e.name) (ha : XmlAttrs e.attrs) (hc : ∀ p ∈ ps, Heard p.1 p.2) (hs : Apart e.children) :
    root [] (print lay e) = some ({ e with children := ps.map (·.2) }, []) := by
  obtain ⟨n, as, cs⟩ := e
  simp only at hk hn ha hs
  subst hk
  have hd : declaration ++ '\n' :: printNode lay 0 (Element.node ⟨n, as, ps.map (·.1)⟩) =
      "<?".toList ++ "xml version=\"1.0\" encoding=\"UTF-8\"".toList ++ "?>".toList ++
        ('\n' :: printNode lay 0 (.elem n as (ps.map (·.1)))) := by
    simp only [declaration, Element.node]
  obtain ⟨r, hr⟩ := printed_tag lay 0 (.elem n as (ps.map (·.1))) (fun s => by simp)
  rw [print, hd, root_eq _ _ _ _ (next_pi _ _ (by
      intro c hc
      have : ∀ c ∈ "xml version=\"1.0\" encoding=\"UTF-8\"".toList, allowed c = true ∧ c ≠ '\r' := by decide +kernel
      exact ⟨(allowed_iff c).1 (this c hc).1, (this c hc).2⟩) (by decide +kernel)) (by simp)]
  show root [] (['\n'] ++ printNode lay 0 (.elem n as (ps.map (·.1)))) = _
  rw [hr, root_blank [] ['\n'] _ (by simp), ← hr, ← List.append_nil (printNode ..)]
  cases ps with
  | nil =>
    rw [List.map_nil, print_empty, root_eq _ _ _ _ (next_start n as true [] hn ha) (by simp)]
    rfl
  | cons p ps =>
    have hk := root_children lay hl n as [] 1 0 (p :: ps) (fun p hp => heard_reads lay hl _ _ (hc p hp)) hs [] []
      ('/' :: (n.toList ++ '>' :: []))
    rw [List.map_cons] at hk ⊢
    rw [print_elem, root_eq _ _ _ _ (next_start n as false _ hn ha) (by simp; omega)]
    show root [⟨n, as, []⟩] _ = _
    rw [hk, root_eq _ _ _ _ (next_stop n [] hn) (by simp)]
    simp only [if_true, List.nil_append]

/-! ## No carriage returns -/

theorem name_cr (n : String) (h : XmlName n) : '\r' ∉ n.toList := fun hm => by
  have := (nameChar_iff _ (h.2 _ hm)).1
  revert this
  decide

theorem attrs_cr (as : List (String × Str)) (h : XmlAttrs as) : '\r' ∉ as.flatMap printAttr := by
  intro hm
  rw [List.mem_flatMap] at hm
  obtain ⟨a, ha, hm⟩ := hm
  unfold printAttr at hm
  simp only [List.mem_append, List.mem_cons, List.not_mem_nil, or_false] at hm
  rcases hm with (((h1 | h1) | h1 | h1 | h1) | h1)
  · revert h1; decide
  · exact name_cr _ (h.2 a ha).1 h1
  · revert h1; decide
  · revert h1; decide
  · exact (esc_attr_mem _ _ h1).2.1 rfl
  · revert h1; decide

theorem lays_cr (lay : Layout) (hl : Lays lay) (d : Nat) (cs : List Node) : '\r' ∉ lay.before d cs ∧ '\r' ∉ lay.close d cs :=
  ⟨fun h => absurd ((hl d cs).1 '\r' (by simp [h])) (by decide), fun h => absurd ((hl d cs).1 '\r' (by simp [h])) (by decide)⟩

theorem children_cr (lay : Layout) (hl : Lays lay) (d : Nat) (cs : List Node) (h : ∀ c ∈ cs, ∀ d, '\r' ∉ printNode lay d c)
    (done : List Node) : '\r' ∉ printNodes lay d done cs := by
  induction cs generalizing done with
  | nil => rw [printNodes_nil]; simp
  | cons c cs ih =>
    rw [printNodes_cons, List.mem_append, List.mem_append]
    rintro ((h1 | h1) | h1)
    · split at h1
      · simp at h1
      · exact (lays_cr lay hl d done).1 h1
    · exact h c (by simp) d h1
    · exact ih (fun c hc => h c (by simp [hc])) _ h1

theorem printed_cr (lay : Layout) (hl : Lays lay) (c : Node) (h : Sayable c) : ∀ d, '\r' ∉ printNode lay d c := by
  induction h with
  | elem n as cs hn ha hc hs ih =>
    intro d
    cases cs with
    | nil =>
      rw [printNode_nil]
      simp only [List.mem_append, List.mem_cons, not_or]
      exact ⟨⟨⟨by decide, name_cr n hn⟩, attrs_cr as ha⟩, by decide⟩
    | cons c cs =>
      rw [printNode_cons]
      simp only [List.mem_append, List.mem_cons, not_or]
      exact ⟨⟨⟨by decide, name_cr n hn⟩, attrs_cr as ha⟩, ⟨⟨⟨⟨by decide, children_cr lay hl _ _ ih _⟩, (lays_cr lay hl _ _).2⟩,
        by decide, by decide, name_cr n hn⟩, by decide⟩⟩
  | text s h hb => intro d hm; rw [printNode_text] at hm; exact (h _ ((esc_text_mem s _ hm).2 rfl)).2 rfl
  | cdata s h he =>
    intro d; rw [printNode_cdata, List.mem_append, List.mem_append, not_or, not_or]
    exact ⟨⟨by decide, fun hm => (h _ hm).2 rfl⟩, by decide⟩
  | comment s h he =>
    intro d; rw [printNode_comment, List.mem_append, List.mem_append, not_or, not_or]
    exact ⟨⟨by decide, fun hm => (h _ hm).2 rfl⟩, by decide⟩
  | pi s h he =>
    intro d; rw [printNode_pi, List.mem_append, List.mem_append, not_or, not_or]
    exact ⟨⟨by decide, fun hm => (h _ hm).2 rfl⟩, by decide⟩

theorem elem_cr (lay : Layout) (hl : Lays lay) (d : Nat) (n : String) (as : List (String × Str)) (cs : List Node) (hn : XmlName n)
    (ha : XmlAttrs as) (hc : ∀ c ∈ cs, ∀ d, '\r' ∉ printNode lay d c) : '\r' ∉ printNode lay d (.elem n as cs) := by
  cases cs with
  | nil =>
    rw [printNode_nil]
    simp only [List.mem_append, List.mem_cons, not_or]
    exact ⟨⟨⟨by decide, name_cr n hn⟩, attrs_cr as ha⟩, by decide⟩
  | cons c cs =>
    rw [printNode_cons]
    simp only [List.mem_append, List.mem_cons, not_or]
    exact ⟨⟨⟨by decide, name_cr n hn⟩, attrs_cr as ha⟩, ⟨⟨⟨⟨by decide, children_cr lay hl _ _ hc _⟩, (lays_cr lay hl _ _).2⟩,
      by decide, by decide, name_cr n hn⟩, by decide⟩⟩

theorem heard_cr (lay : Layout) (hl : Lays lay) (c c' : Node) (h : Heard c c') : ∀ d, '\r' ∉ printNode lay d c := by
  induction h with
  | elem n as ps hn ha hc hs ih =>
    intro d
    apply elem_cr lay hl d n as _ hn ha
    intro c hc'
    obtain ⟨p, hp, rfl⟩ := List.mem_map.1 hc'
    exact ih p hp
  | blank n as s hn ha h hb =>
    intro d
    apply elem_cr lay hl d n as _ hn ha
    intro c hc' d hm
    rw [List.mem_singleton.1 hc', printNode_text] at hm
    exact (h _ ((esc_text_mem s _ hm).2 rfl)).2 rfl
  | same c h => exact printed_cr lay hl c h

/-- The text of a document is parsed as what is heard of it. -/
theorem parse_print (lay : Layout) (hl : Lays lay) (e : Element) (ps : List (Node × Node)) (hk : e.children = ps.map (·.1))
    (hn : XmlName e.name) (ha : XmlAttrs e.attrs) (hc : ∀ p ∈ ps, Heard p.1 p.2) (hs : Apart e.children) :
    parse (print lay e) = some { e with children := ps.map (·.2) } := by
  have hcr : '\r' ∉ print lay e := by
    rw [print, List.mem_append, List.mem_cons, not_or, not_or]
    refine ⟨by decide +kernel, by decide, elem_cr lay hl 0 _ _ _ hn ha ?_⟩
    intro c hc'
    rw [hk] at hc'
    obtain ⟨p, hp, rfl⟩ := List.mem_map.1 hc'
    exact heard_cr lay hl _ _ (hc p hp)
  rw [parse, lines_eq _ hcr, root_document lay hl e ps hk hn ha hc hs]
  show (if nothing [] then _ else none) = _
  rw [if_pos (by rw [nothing]; rfl)]

end XmlText
end GP
