import Verif.Model.Strings
import Verif.Spec.Strings
/-! Lemmas on checked strings and file names. -/
namespace GP
open Spec

theorem isControl_iff (c : Char) : isControl c = true ↔ Control c := by
  unfold isControl Control
  simp
  omega

theorem findPosition_none {f : Char → Bool} {s : Str} :
    findPosition f s = none ↔ ∀ c ∈ s, f c = false := by
  induction s with
  | nil => simp [findPosition]
  | cons a s ih =>
    unfold findPosition
    by_cases h : f a = true
    · simp [h]
    · simp [h, ih]

theorem findPosition_some {f : Char → Bool} {s : Str} {i : Nat} {c : Char}
    (h : findPosition f s = some (i, c)) :
    ∃ p r, s = p ++ c :: r ∧ p.length = i ∧ f c = true ∧ ∀ d ∈ p, f d = false := by
  induction s generalizing i with
  | nil => simp [findPosition] at h
  | cons a s ih =>
    unfold findPosition at h
    by_cases ha : f a = true
    · simp [ha] at h
      obtain ⟨rfl, rfl⟩ := h
      exact ⟨[], s, rfl, rfl, ha, by simp⟩
    · rw [if_neg ha] at h
      simp at h
      obtain ⟨j, hj, rfl⟩ := h
      obtain ⟨p, r, rfl, rfl, hc, hp⟩ := ih hj
      exact ⟨a :: p, r, rfl, rfl, hc, by simpa [ha] using hp⟩

theorem findPosition_append {f : Char → Bool} {p r : Str} {c : Char} (hp : ∀ d ∈ p, f d = false)
    (hc : f c = true) : findPosition f (p ++ c :: r) = some (p.length, c) := by
  induction p with
  | nil => simp [findPosition, hc]
  | cons a p ih =>
    simp only [List.cons_append, findPosition, hp a (by simp)]
    rw [ih (fun d hd => hp d (by simp [hd]))]
    simp

theorem utf8Len_pos (c : Char) : 1 ≤ utf8Len c := by
  unfold utf8Len; split <;> (try split) <;> (try split) <;> omega

theorem utf8Len_ascii {c : Char} (h : c.toNat < 128) : utf8Len c = 1 := by
  unfold utf8Len; rw [if_pos (by omega)]

theorem utf8Len_big {c : Char} (h : 128 ≤ c.toNat) : 2 ≤ utf8Len c := by
  unfold utf8Len; rw [if_neg (by omega)]; split <;> (try split) <;> omega

theorem removeByte_ascii {q : Str} (hq : ∀ d ∈ q, d.toNat < 128) (v : Str) (m : Nat) :
    removeByte (q ++ v) (q.length + m) = (removeByte v m).map (q ++ ·) := by
  induction q with
  | nil => simp
  | cons a q ih =>
    have : (a :: q).length + m = (q.length + m) + 1 := by simp; omega
    rw [this, List.cons_append, removeByte, utf8Len_ascii (hq a (by simp)), if_pos (by omega)]
    rw [show q.length + m + 1 - 1 = q.length + m by omega, ih (fun d hd => hq d (by simp [hd]))]
    cases removeByte v m <;> simp

theorem removeByte_prefix (t u : Str) : ∀ n, n < t.length → ∀ s', removeByte (t ++ u) n = some s' →
    ∃ t', s' = t' ++ u := by
  induction t with
  | nil => intro n h; simp at h
  | cons a t ih =>
    intro n hn s' h
    cases n with
    | zero =>
      simp [removeByte] at h
      exact ⟨t, h.symm⟩
    | succ n =>
      rw [List.cons_append, removeByte] at h
      split at h
      next =>
        have := utf8Len_pos a
        simp at hn
        cases hr : removeByte (t ++ u) (n + 1 - utf8Len a) with
        | none => rw [hr] at h; cases h
        | some w =>
          rw [hr] at h
          obtain ⟨t', ht⟩ := ih _ (by omega) w hr
          simp at h
          exact ⟨a :: t', by rw [← h, ht]; rfl⟩
      next => cases h

theorem removeByte_length (s : Str) : ∀ n s', removeByte s n = some s' → s'.length + 1 = s.length := by
  induction s with
  | nil => intro n s' h; simp [removeByte] at h
  | cons a s ih =>
    intro n s' h
    cases n with
    | zero => simp [removeByte] at h; subst h; rfl
    | succ n =>
      rw [removeByte] at h
      split at h
      next =>
        cases hr : removeByte s (n + 1 - utf8Len a) with
        | none => rw [hr] at h; cases h
        | some w =>
          rw [hr] at h
          simp at h
          subst h
          have := ih _ _ hr
          simp [this]
      next => cases h

theorem toGlifStringLoop_eq (fuel : Nat) (s : Str) : toGlifStringLoop fuel s =
    match findPosition isControl s with
    | none => .ok s
    | some (i, _) =>
      match fuel with
      | 0 => .panic
      | fuel + 1 =>
        match removeByte s i with
        | some s' => toGlifStringLoop fuel s'
        | none => .panic := by
  rw [toGlifStringLoop.eq_def]
  unfold glifString
  cases h : findPosition isControl s with
  | none => simp only []; rw [h]
  | some ic => cases fuel <;> (simp only []; rw [h]; try rfl)

/-- A split into what precedes a control character that follows a non-ASCII one. -/
theorem controlAfter_iff (s : Str) : ControlAfterNonAscii s ↔
    ∃ q x t c r, s = q ++ x :: (t ++ c :: r) ∧ 128 ≤ x.toNat ∧ Control c := by
  constructor
  · rintro ⟨i, j, x, c, hij, hi, hj, hx, hc⟩
    obtain ⟨hi', ei⟩ := List.getElem?_eq_some_iff.1 hi
    obtain ⟨hj', ej⟩ := List.getElem?_eq_some_iff.1 hj
    refine ⟨s.take i, x, (s.drop (i + 1)).take (j - i - 1), c, s.drop (j + 1), ?_, hx, hc⟩
    have h1 : s = s.take i ++ x :: s.drop (i + 1) := by
      rw [← ei, List.getElem_cons_drop, List.take_append_drop]
    have h2 : s.drop (i + 1) = (s.drop (i + 1)).take (j - i - 1) ++ c :: s.drop (j + 1) := by
      have : s.drop (j + 1) = (s.drop (i + 1)).drop (j - i - 1 + 1) := by
        rw [List.drop_drop]; congr 1; omega
      rw [this]
      have e : c = (s.drop (i + 1))[j - i - 1]'(by simp; omega) := by
        rw [List.getElem_drop, ← ej]; congr 1; omega
      rw [e, List.getElem_cons_drop, List.take_append_drop]
    rw [← h2]; exact h1
  · rintro ⟨q, x, t, c, r, rfl, hx, hc⟩
    refine ⟨q.length, q.length + 1 + t.length, x, c, by omega, by simp, ?_, hx, hc⟩
    rw [List.getElem?_append_right (by omega)]
    rw [show q.length + 1 + t.length - q.length = t.length + 1 by omega, List.getElem?_cons_succ]
    rw [List.getElem?_append_right (by omega)]
    simp

/-- `q` up to its first non-ASCII character. -/
theorem split_ascii (p : Str) : (∀ d ∈ p, d.toNat < 128) ∨
    ∃ q x t, p = q ++ x :: t ∧ (∀ d ∈ q, d.toNat < 128) ∧ 128 ≤ x.toNat := by
  induction p with
  | nil => left; simp
  | cons a p ih =>
    by_cases ha : a.toNat < 128
    · rcases ih with h | ⟨q, x, t, rfl, hq, hx⟩
      · left; simpa [ha] using h
      · right; exact ⟨a :: q, x, t, rfl, by simpa [ha] using hq, hx⟩
    · right; exact ⟨[], a, p, rfl, by simp, by omega⟩

theorem toGlifStringLoop_panics : ∀ (fuel : Nat) (s : Str), ControlAfterNonAscii s →
    toGlifStringLoop fuel s = .panic := by
  intro fuel
  induction fuel with
  | zero =>
    intro s hs
    rw [toGlifStringLoop_eq]
    obtain ⟨q, x, t, c, r, rfl, hx, hc⟩ := (controlAfter_iff s).1 hs
    cases h : findPosition isControl (q ++ x :: (t ++ c :: r)) with
    | none =>
      have := findPosition_none.1 h c (by simp)
      rw [(isControl_iff c).2 hc] at this
      cases this
    | some ic => rfl
  | succ fuel ih =>
    intro s hs
    rw [toGlifStringLoop_eq]
    obtain ⟨q, x, t, c, r, e, hx, hc⟩ := (controlAfter_iff s).1 hs
    cases h : findPosition isControl s with
    | none =>
      have := findPosition_none.1 h c (by simp [e])
      rw [(isControl_iff c).2 hc] at this
      cases this
    | some ic =>
      obtain ⟨i, c0⟩ := ic
      obtain ⟨p, r0, es, hpl, hc0, hp⟩ := findPosition_some h
      simp only []
      rcases split_ascii p with hpa | ⟨q1, x1, t1, rfl, hq1, hx1⟩
      · have hrm : removeByte s i = some (p ++ r0) := by
          rw [es, ← hpl]
          have := removeByte_ascii hpa (c0 :: r0) 0
          rw [Nat.add_zero] at this
          rw [this]; rfl
        rw [hrm]
        simp only []
        apply ih
        -- the bad pair lies after the removed character
        rw [controlAfter_iff]
        have hc0' : c0.toNat < 128 := by
          have := (isControl_iff c0).1 hc0
          unfold Control at this; omega
        have hall : ∀ d ∈ p ++ [c0], d.toNat < 128 := by
          intro d hd
          rcases List.mem_append.1 hd with hd | hd
          · exact hpa d hd
          · rw [List.mem_singleton.1 hd]; exact hc0'
        have e2 : (p ++ [c0]) ++ r0 = q ++ (x :: (t ++ c :: r)) := by rw [← e, es]; simp
        rcases List.append_eq_append_iff.1 e2 with ⟨a', h1, h2⟩ | ⟨a', h1, h2⟩
        · exact ⟨p ++ a', x, t, c, r, by rw [h2]; simp, hx, hc⟩
        · cases a' with
          | nil =>
            refine ⟨p, x, t, c, r, ?_, hx, hc⟩
            rw [List.nil_append] at h2; rw [h2]
          | cons y a' =>
            simp at h2
            have : x ∈ p ++ [c0] := by rw [h1, h2.1]; simp
            have := hall x this
            omega
      · cases hr : removeByte s i with
        | none => rfl
        | some s' =>
          simp only []
          apply ih
          rw [controlAfter_iff]
          have hpl' : i = q1.length + (t1.length + 1) := by rw [← hpl]; simp
          have es' : s = q1 ++ (x1 :: (t1 ++ c0 :: r0)) := by rw [es]; simp
          rw [es', hpl', removeByte_ascii hq1, removeByte] at hr
          split at hr
          next hle =>
            cases hr2 : removeByte (t1 ++ c0 :: r0) (t1.length + 1 - utf8Len x1) with
            | none => rw [hr2] at hr; cases hr
            | some w =>
              rw [hr2] at hr
              have h2 := utf8Len_big hx1
              have := removeByte_prefix t1 (c0 :: r0) (t1.length + 1 - utf8Len x1) (by omega) w hr2
              obtain ⟨t', rfl⟩ := this
              simp at hr
              exact ⟨q1, x1, t', c0, r0, hr.symm, hx1, (isControl_iff c0).1 hc0⟩
          next => cases hr

theorem toGlifStringLoop_ok : ∀ (fuel : Nat) (s : Str), s.length ≤ fuel → ¬ ControlAfterNonAscii s →
    toGlifStringLoop fuel s = .ok (cleaned s) := by
  intro fuel
  induction fuel with
  | zero =>
    intro s hs _
    have : s = [] := List.length_eq_zero_iff.1 (by omega)
    subst this
    rfl
  | succ fuel ih =>
    intro s hs hg
    rw [toGlifStringLoop_eq]
    cases h : findPosition isControl s with
    | none =>
      simp only []
      have := findPosition_none.1 h
      congr 1
      unfold cleaned
      rw [eq_comm, List.filter_eq_self]
      intro c hc
      have h1 := this c hc
      simp
      intro hcon
      rw [(isControl_iff c).2 hcon] at h1
      cases h1
    | some ic =>
      obtain ⟨i, c0⟩ := ic
      obtain ⟨p, r0, es, hpl, hc0, hp⟩ := findPosition_some h
      simp only []
      have hpa : ∀ d ∈ p, d.toNat < 128 := by
        rcases split_ascii p with hpa | ⟨q1, x1, t1, rfl, hq1, hx1⟩
        · exact hpa
        · exact absurd ((controlAfter_iff s).2 ⟨q1, x1, t1, c0, r0, by rw [es]; simp, hx1,
            (isControl_iff c0).1 hc0⟩) hg
      have hrm : removeByte s i = some (p ++ r0) := by
        rw [es, ← hpl]
        have := removeByte_ascii hpa (c0 :: r0) 0
        rw [Nat.add_zero] at this
        rw [this]; rfl
      rw [hrm]
      simp only []
      rw [ih (p ++ r0) (by rw [es] at hs; simp at hs ⊢; omega)]
      · rw [es]
        unfold cleaned
        simp [(isControl_iff c0).1 hc0]
      · intro hb
        apply hg
        obtain ⟨q, x, t, c, r, e, hx, hc⟩ := (controlAfter_iff _).1 hb
        rw [controlAfter_iff]
        rcases List.append_eq_append_iff.1 e with ⟨a', h1, h2⟩ | ⟨a', h1, h2⟩
        · exact ⟨p ++ c0 :: a', x, t, c, r, by rw [es, h2]; simp, hx, hc⟩
        · cases a' with
          | nil =>
            rw [List.nil_append] at h2
            exact ⟨p ++ [c0], x, t, c, r, by rw [es, ← h2]; simp, hx, hc⟩
          | cons y a' =>
            simp at h2
            have : x ∈ p := by rw [h1, h2.1]; simp
            have := hpa x this
            omega

/-! ## File names -/

/-- What one character of a glyph name becomes. -/
def enc (c : Char) : Str := if underscored c then [c, '_'] else [c]

theorem nameToFilename_eq (name : Str) (ext : Bool) :
    nameToFilename name ext = name.flatMap enc ++ (if ext then ".glif".toList else []) := by
  have : ∀ acc, name.foldl (fun ret c => let ret := ret ++ [c]; if underscored c then ret ++ ['_'] else ret) acc
      = acc ++ name.flatMap enc := by
    induction name with
    | nil => simp
    | cons c name ih =>
      intro acc
      rw [List.foldl_cons, ih, List.flatMap_cons]
      unfold enc
      by_cases h : underscored c = true <;> simp [h]
  unfold nameToFilename
  rw [this]
  cases ext <;> simp

theorem enc_inj : ∀ (a b : Str), a.flatMap enc = b.flatMap enc → a = b := by
  intro a
  induction a with
  | nil =>
    intro b h
    cases b with
    | nil => rfl
    | cons d b =>
      rw [List.flatMap_cons] at h
      unfold enc at h
      by_cases hd : underscored d = true <;> simp [hd] at h
  | cons c a ih =>
    intro b h
    cases b with
    | nil =>
      rw [List.flatMap_cons] at h
      unfold enc at h
      by_cases hc : underscored c = true <;> simp [hc] at h
    | cons d b =>
      rw [List.flatMap_cons, List.flatMap_cons] at h
      have hcd : c = d := by
        unfold enc at h
        by_cases hc : underscored c = true <;> by_cases hd : underscored d = true <;>
          simp [hc, hd] at h <;> exact h.1
      subst hcd
      rw [ih b (List.append_cancel_left h)]

theorem char_eq {a b : Char} (h : a.toNat = b.toNat) : a = b :=
  Char.ext (UInt32.toNat_inj.1 h)

theorem toNat_ofNat {n : Nat} (h : n < 0xd800) : (Char.ofNat n).toNat = n := by
  have hv : n.isValidChar := Or.inl h
  unfold Char.ofNat
  rw [dif_pos hv]
  rfl

theorem lower_toNat (c : Char) : (lower c).toNat =
    if 65 ≤ c.toNat ∧ c.toNat ≤ 90 then c.toNat + 32 else c.toNat := by
  unfold lower
  split
  next h => exact toNat_ofNat (by omega)
  next => rfl

theorem underscored_iff (c : Char) : underscored c = true ↔ 65 ≤ c.toNat ∧ c.toNat < 90 := by
  unfold underscored
  simp only [Bool.and_eq_true, decide_eq_true_eq]
  exact Iff.rfl

theorem caseSafe_tail {c : Char} {n : Str} (h : CaseSafe (c :: n)) : CaseSafe n := by
  refine ⟨fun hz => h.1 (by simp [hz]), fun i d h1 h2 => h.2 (i + 1) d (by simpa using h1) (by simpa using h2)⟩

theorem caseSafe_head {c : Char} {n : Str} (h : CaseSafe (c :: n)) (hn : n.head? = some '_') :
    ¬ (97 ≤ c.toNat ∧ c.toNat ≤ 121) :=
  h.2 0 c rfl (by rw [List.head?_eq_getElem?] at hn; simpa using hn)

theorem lower_head (b : Str) (r : Str) (h : (b.flatMap enc).map lower = '_' :: r) :
    b.head? = some '_' := by
  cases b with
  | nil => simp at h
  | cons e b =>
    rw [List.flatMap_cons] at h
    have he : lower e = '_' := by
      unfold enc at h
      by_cases hd : underscored e = true <;> simp [hd] at h <;> exact h.1
    have := lower_toNat e
    rw [he] at this
    have h95 : ('_' : Char).toNat = 95 := rfl
    rw [h95] at this
    have : e.toNat = 95 := by split at this <;> omega
    rw [List.head?_cons, char_eq (b := '_') this]

theorem enc_lower_inj : ∀ (a b : Str), CaseSafe a → CaseSafe b →
    (a.flatMap enc).map lower = (b.flatMap enc).map lower → a = b := by
  have mixed : ∀ (c d : Char) (a b : Str), CaseSafe (d :: b) → underscored c = true →
      ¬ underscored d = true → ((c :: a).flatMap enc).map lower = ((d :: b).flatMap enc).map lower →
      False := by
    intro c d a b hb hc hd h
    rw [List.flatMap_cons, List.flatMap_cons] at h
    unfold enc at h
    rw [if_pos hc, if_neg hd] at h
    simp only [List.cons_append, List.nil_append, List.map_cons, List.cons.injEq] at h
    obtain ⟨h1, h2⟩ := h
    have hl : lower '_' = '_' := by decide
    rw [hl] at h2
    have h3 := lower_head b _ h2.symm
    have h4 := caseSafe_head hb h3
    have e := congrArg Char.toNat h1
    rw [lower_toNat, lower_toNat] at e
    rw [underscored_iff] at hc hd
    have hz : d.toNat ≠ 90 := by
      intro hd'
      exact hb.1 (by simp [char_eq (a := d) (b := 'Z') hd'])
    split at e <;> split at e <;> omega
  intro a
  induction a with
  | nil =>
    intro b _ _ h
    cases b with
    | nil => rfl
    | cons d b =>
      rw [List.flatMap_cons] at h
      unfold enc at h
      by_cases hd : underscored d = true <;> simp [hd] at h
  | cons c a ih =>
    intro b ha hb h
    cases b with
    | nil =>
      rw [List.flatMap_cons] at h
      unfold enc at h
      by_cases hc : underscored c = true <;> simp [hc] at h
    | cons d b =>
      by_cases hc : underscored c = true <;> by_cases hd : underscored d = true
      · rw [List.flatMap_cons, List.flatMap_cons] at h
        unfold enc at h
        rw [if_pos hc, if_pos hd] at h
        simp only [List.cons_append, List.nil_append, List.map_cons, List.cons.injEq, true_and] at h
        obtain ⟨h1, h2⟩ := h
        have e := congrArg Char.toNat h1
        rw [lower_toNat, lower_toNat] at e
        rw [underscored_iff] at hc hd
        rw [if_pos (by omega), if_pos (by omega)] at e
        rw [char_eq (a := c) (b := d) (by omega), ih b (caseSafe_tail ha) (caseSafe_tail hb) h2]
      · exact (mixed c d a b hb hc hd h).elim
      · exact (mixed d c b a ha hd hc h.symm).elim
      · rw [List.flatMap_cons, List.flatMap_cons] at h
        unfold enc at h
        rw [if_neg hc, if_neg hd] at h
        simp only [List.cons_append, List.nil_append, List.map_cons, List.cons.injEq] at h
        obtain ⟨h1, h2⟩ := h
        have e := congrArg Char.toNat h1
        rw [lower_toNat, lower_toNat] at e
        rw [underscored_iff] at hc hd
        have hz : d.toNat ≠ 90 := by
          intro hd'
          exact hb.1 (by simp [char_eq (a := d) (b := 'Z') hd'])
        have hz' : c.toNat ≠ 90 := by
          intro hd'
          exact ha.1 (by simp [char_eq (a := c) (b := 'Z') hd'])
        rw [if_neg (by omega), if_neg (by omega)] at e
        rw [char_eq e, ih b (caseSafe_tail ha) (caseSafe_tail hb) h2]

theorem splitOn_none {sep : Char} {s : Str} (h : sep ∉ s) : splitOn sep s = [s] := by
  induction s with
  | nil => rfl
  | cons c s ih =>
    unfold splitOn
    rw [if_neg (fun e => h (by simp [e])), ih (fun hm => h (by simp [hm]))]

theorem slash_enc {base : Str} (h : '/' ∉ base) : '/' ∉ nameToFilename base true := by
  rw [nameToFilename_eq]
  intro hm
  rcases List.mem_append.1 hm with hm | hm
  · obtain ⟨c, hc, he⟩ := List.mem_flatMap.1 hm
    unfold enc at he
    by_cases hu : underscored c = true
    · rw [if_pos hu] at he
      simp at he
      exact h (he ▸ hc)
    · rw [if_neg hu] at he
      simp at he
      exact h (he ▸ hc)
  · revert hm; decide

end GP
