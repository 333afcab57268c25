import Verif.Spec.LibFile
import Verif.Props.PlistSpoken
import Verif.Props.Grammar
import Mathlib.Data.List.Induction
/-!
# C141: the lib of any file
-/
open Fl Fl.Text
namespace GP
open Spec Plist
variable {PD L : Type}

/-! ## Dictionaries -/

theorem mem_firstKeys {k : Str} {ks : List Str} : k ∈ firstKeys ks ↔ k ∈ ks := by
  induction ks with
  | nil => simp [firstKeys]
  | cons a ks ih =>
    simp only [firstKeys, List.mem_cons, List.mem_filter, ih, decide_eq_true_eq]
    by_cases h : k = a <;> simp [h]

theorem firstKeys_snoc (ks : List Str) (k : Str) : firstKeys (ks ++ [k]) = if k ∈ ks then firstKeys ks else firstKeys ks ++ [k] := by
  induction ks with
  | nil => simp [firstKeys]
  | cons a ks ih =>
    simp only [List.cons_append, firstKeys, ih, List.mem_cons]
    by_cases h : k = a
    · subst h
      by_cases hk : k ∈ ks <;> simp [hk]
    · by_cases hk : k ∈ ks <;> simp [h, hk]

theorem insertEntry_val {k k' : Str} {v v' : PVal L} {d : Dict L} (hn : (d.map (·.1)).Nodup) (h : (k, v) ∈ insertEntry k' v' d) :
    (k = k' ∧ v = v') ∨ (k ≠ k' ∧ (k, v) ∈ d) := by
  induction d with
  | nil =>
    simp only [insertEntry, List.mem_singleton, Prod.mk.injEq] at h
    exact Or.inl h
  | cons e d ih =>
    obtain ⟨k₁, v₁⟩ := e
    simp only [insertEntry] at h
    simp only [List.map_cons, List.nodup_cons] at hn
    split at h
    · next heq =>
      rcases List.mem_cons.1 h with h | h
      · exact Or.inl (by simpa using h)
      · refine Or.inr ⟨fun hk => hn.1 ?_, by simp [h]⟩
        rw [heq, ← hk]
        exact List.mem_map.2 ⟨_, h, rfl⟩
    · next hne =>
      rcases List.mem_cons.1 h with h | h
      · cases h
        exact Or.inr ⟨hne, by simp⟩
      · exact (ih hn.2 h).imp_right fun h => ⟨h.1, by simp [h.2]⟩

theorem gather_snoc (es : Dict L) (e : Str × PVal L) : gather (es ++ [e]) = insertEntry e.1 e.2 (gather es) := by
  simp [gather]

theorem dictOf_gather (es : Dict L) : DictOf es (gather es) := by
  induction es using List.reverseRecOn with
  | nil => exact ⟨rfl, fun k v h => (nomatch h)⟩
  | append_singleton es e ih =>
    obtain ⟨k', v'⟩ := e
    refine ⟨?_, fun k v h => ?_⟩
    · rw [gather_snoc, insertEntry_keys, List.map_append, List.map_cons, List.map_nil, firstKeys_snoc, ih.1]
      simp only [mem_firstKeys]
    · rw [gather_snoc] at h
      rcases insertEntry_val (gather_nodup es) h with ⟨rfl, rfl⟩ | ⟨hne, h⟩
      · exact ⟨es, [], rfl, by simp⟩
      · obtain ⟨a, b, rfl, hb⟩ := ih.2 k v h
        exact ⟨a, b ++ [(k', v')], by simp, by simp [hb, hne]⟩

theorem last_unique {es a b a' b' : Dict L} {k : Str} {v v' : PVal L} (h : es = a ++ (k, v) :: b) (hb : k ∉ b.map (·.1))
    (h' : es = a' ++ (k, v') :: b') (hb' : k ∉ b'.map (·.1)) : v = v' := by
  induction es generalizing a a' with
  | nil => simp at h
  | cons e es ih =>
    cases a with
    | nil =>
      cases a' with
      | nil => rw [h] at h'; simp at h'; exact h'.1
      | cons x a' =>
        rw [List.nil_append, List.cons.injEq] at h
        rw [List.cons_append, List.cons.injEq] at h'
        exact absurd (by rw [← h.2, h'.2]; simp) hb
    | cons x a =>
      rw [List.cons_append, List.cons.injEq] at h
      cases a' with
      | nil =>
        rw [List.nil_append, List.cons.injEq] at h'
        exact absurd (by rw [← h'.2, h.2]; simp) hb'
      | cons x' a' =>
        rw [List.cons_append, List.cons.injEq] at h'
        exact ih h.2 h'.2

theorem dictOf_iff {es d : Dict L} : DictOf es d ↔ d = gather es := by
  refine ⟨fun h => ?_, fun h => h ▸ dictOf_gather es⟩
  have hg := dictOf_gather es
  have hk := h.1.trans hg.1.symm
  have hlen : d.length = (gather es).length := by simpa using congrArg List.length hk
  refine List.ext_getElem hlen fun i h1 h2 => ?_
  have hki : (d[i]).1 = ((gather es)[i]).1 := by
    have := List.getElem_of_eq hk (i := i) (by simpa using h1)
    simpa using this
  obtain ⟨a, b, e1, hb⟩ := h.2 _ _ (List.getElem_mem h1)
  obtain ⟨a', b', e2, hb'⟩ := hg.2 _ _ (List.getElem_mem h2)
  simp only [List.get_eq_getElem] at e1 e2 hb hb'
  rw [← hki] at e2 hb'
  exact Prod.ext hki (last_unique e1 hb e2 hb')

/-! ## Values -/

mutual
/-- The node as it is after the lib is printed and parsed. -/
def reNode : Node → Node
  | .elem n as cs => .elem n (untabs as) (reNodes cs)
  | .text s => .text (XmlText.lines s)
  | .cdata s => .cdata s
  | .comment s => .comment s
  | .pi s => .pi s

def reNodes : List Node → List Node
  | [] => []
  | c :: cs => reNode c :: reNodes cs
end

theorem reNodes_eq (cs : List Node) : reNodes cs = cs.map reNode := by
  induction cs with
  | nil => simp [reNodes]
  | cons c cs ih => simp [reNodes, ih]

theorem all_space {s : Str} : s.all XmlText.space = true ↔ Blank s := by
  simp [Blank, XmlText.space, or_assoc]

theorem ignored_re (c : Node) : ignored (reNode c) = true ↔ Passed c := by
  cases c with
  | elem n as cs => simp [reNode, ignored, Passed]
  | text s => simp only [reNode, ignored, Passed, all_space, blank_lines]
  | cdata s => simp only [reNode, ignored, Passed, all_space]
  | comment s => simp [reNode, ignored, Passed]
  | pi s => simp [reNode, ignored, Passed]

theorem chars_re (cs : List Node) (s : Str) : chars (cs.map reNode) = some s ↔ Content cs s := by
  induction cs generalizing s with
  | nil =>
    simp only [List.map_nil, chars, Option.some.injEq]
    exact ⟨fun h => h ▸ .nil, fun h => by cases h; rfl⟩
  | cons c cs ih =>
    cases c with
    | elem n as cs => simp only [List.map_cons, reNode, chars]; exact ⟨fun h => (nomatch h), fun h => (nomatch h)⟩
    | text t =>
      simp only [List.map_cons, reNode, chars, Option.map_eq_some_iff]
      rw [← unix_lines]
      exact ⟨fun ⟨r, h, e⟩ => e ▸ .text ((ih r).1 h), fun h => by cases h with | text h => exact ⟨_, (ih _).2 h, rfl⟩⟩
    | cdata t =>
      simp only [List.map_cons, reNode, chars, Option.map_eq_some_iff]
      exact ⟨fun ⟨r, h, e⟩ => e ▸ .cdata ((ih r).1 h), fun h => by cases h with | cdata h => exact ⟨_, (ih _).2 h, rfl⟩⟩
    | comment t =>
      simp only [List.map_cons, reNode, chars]
      exact ⟨fun h => .comment ((ih s).1 h), fun h => by cases h with | comment h => exact (ih _).2 h⟩
    | pi t =>
      simp only [List.map_cons, reNode, chars]
      exact ⟨fun h => .pi ((ih s).1 h), fun h => by cases h with | pi h => exact (ih _).2 h⟩

theorem matter_cons (c : Node) (cs : List Node) : matter (c :: cs) = if Passed c then matter cs else c :: matter cs := by
  unfold matter
  rw [List.filter_cons]
  by_cases h : Passed c <;> simp [h]

theorem matter_mem {c : Node} {cs : List Node} (h : c ∈ matter cs) : c ∈ cs ∧ ¬ Passed c := by
  simpa [matter] using h

theorem values_matter (lio : LeafIO L) (cs : List Node) : values lio (cs.map reNode) = values lio ((matter cs).map reNode) := by
  induction cs with
  | nil => rfl
  | cons c cs ih =>
    rw [matter_cons, List.map_cons, values]
    by_cases h : Passed c
    · rw [if_pos ((ignored_re c).2 h), if_pos h, ih]
    · rw [if_neg fun hi => h ((ignored_re c).1 hi), if_neg h, List.map_cons, values, if_neg fun hi => h ((ignored_re c).1 hi), ih]

theorem entries_matter (lio : LeafIO L) (cs : List Node) : ∀ o, entries lio o (cs.map reNode) = entries lio o ((matter cs).map reNode) := by
  induction cs with
  | nil => intro o; rfl
  | cons c cs ih =>
    intro o
    rw [matter_cons, List.map_cons]
    by_cases h : Passed c
    · cases o <;> rw [entries, if_pos ((ignored_re c).2 h), if_pos h, ih]
    · have hi : ¬ ignored (reNode c) = true := fun hi => h ((ignored_re c).1 hi)
      cases o with
      | none => rw [entries, if_neg hi, if_neg h, List.map_cons, entries, if_neg hi]; simp only [ih]
      | some k => rw [entries, if_neg hi, if_neg h, List.map_cons, entries, if_neg hi, ih]

theorem values_iff (lio : LeafIO L) (ms : List Node) (hm : ∀ c ∈ ms, ¬ Passed c) (l : List (PVal L)) :
    values lio (ms.map reNode) = some l ↔ ∃ ps : List (Node × PVal L), ms = ps.map (·.1) ∧ l = ps.map (·.2) ∧ ∀ p ∈ ps, value lio (reNode p.1) = some p.2 := by
  induction ms generalizing l with
  | nil =>
    simp only [List.map_nil, values, Option.some.injEq]
    constructor
    · rintro rfl; exact ⟨[], rfl, rfl, fun p h => (nomatch h)⟩
    · rintro ⟨ps, h, rfl, -⟩
      rw [List.map_eq_nil_iff.1 h.symm]; rfl
  | cons c ms ih =>
    have hi : ¬ ignored (reNode c) = true := fun h => hm c (by simp) ((ignored_re c).1 h)
    rw [List.map_cons, values, if_neg hi]
    constructor
    · intro h
      obtain ⟨v, hv, h⟩ := Option.bind_eq_some_iff.1 h
      obtain ⟨r, hr, h⟩ := Option.bind_eq_some_iff.1 h
      cases h
      obtain ⟨ps, rfl, rfl, hp⟩ := (ih (fun d hd => hm d (by simp [hd])) r).1 hr
      exact ⟨(c, v) :: ps, rfl, rfl, fun p h => by
        rcases List.mem_cons.1 h with rfl | h
        · exact hv
        · exact hp p h⟩
    · rintro ⟨ps, h, rfl, hp⟩
      cases ps with
      | nil => cases h
      | cons p ps =>
        rw [List.map_cons, List.cons.injEq] at h
        obtain ⟨rfl, h⟩ := h
        rw [hp p (by simp), (ih (fun d hd => hm d (by simp [hd])) (ps.map (·.2))).2 ⟨ps, h, rfl, fun q hq => hp q (by simp [hq])⟩]
        rfl

theorem keyOf_re (c : Node) (k : Str) : keyOf (reNode c) = some k ↔ ∃ as cs, c = .elem "key" as cs ∧ Content cs k := by
  cases c with
  | elem n as cs =>
    simp only [reNode, keyOf, reNodes_eq]
    split
    · next h =>
      subst h
      rw [chars_re]
      exact ⟨fun h => ⟨as, cs, rfl, h⟩, fun ⟨_, _, e, h⟩ => by cases e; exact h⟩
    · next h => exact ⟨fun h => (nomatch h), fun ⟨_, _, e, _⟩ => by cases e; exact absurd rfl h⟩
  | _ => exact ⟨fun h => (nomatch h), fun ⟨_, _, e, _⟩ => (nomatch e)⟩

theorem entries_iff (lio : LeafIO L) (n : Nat) : ∀ (ms : List Node), ms.length ≤ n → (∀ c ∈ ms, ¬ Passed c) → ∀ es : Dict L,
    entries lio none (ms.map reNode) = some es ↔ ∃ ps : List ((List (String × Str) × List Node × Str) × Node × PVal L),
      (ms = ps.flatMap fun p => [.elem "key" p.1.1 p.1.2.1, p.2.1]) ∧ es = ps.map (fun p => (p.1.2.2, p.2.2)) ∧
      ∀ p ∈ ps, Content p.1.2.1 p.1.2.2 ∧ value lio (reNode p.2.1) = some p.2.2 := by
  induction n with
  | zero =>
    intro ms hl hm es
    rw [List.length_eq_zero_iff.1 (Nat.le_zero.1 hl)]
    simp only [List.map_nil, entries, Option.some.injEq]
    constructor
    · rintro rfl; exact ⟨[], rfl, rfl, fun p h => (nomatch h)⟩
    · rintro ⟨ps, h, rfl, -⟩
      cases ps with
      | nil => rfl
      | cons p ps => simp at h
  | succ n ihn =>
    intro ms hl hm es
    match ms, hl, hm with
    | [], _, _ => exact ihn [] (by simp) (by simp) es
    | [c], _, hm =>
      have hi : ¬ ignored (reNode c) = true := fun h => hm c (by simp) ((ignored_re c).1 h)
      simp only [List.map_cons, List.map_nil, entries, if_neg hi]
      constructor
      · intro h
        obtain ⟨k, hk, h⟩ := Option.bind_eq_some_iff.1 h
        cases h
      · rintro ⟨ps, h, rfl, -⟩
        cases ps with
        | nil => simp at h
        | cons p ps => simp at h
    | c :: c' :: ms, hl, hm =>
      have hi : ¬ ignored (reNode c) = true := fun h => hm c (by simp) ((ignored_re c).1 h)
      have hi' : ¬ ignored (reNode c') = true := fun h => hm c' (by simp) ((ignored_re c').1 h)
      have ih := ihn ms (by simp at hl; omega) fun d hd => hm d (by simp [hd])
      simp only [List.map_cons, entries, if_neg hi, if_neg hi']
      constructor
      · intro h
        obtain ⟨k, hk, h⟩ := Option.bind_eq_some_iff.1 h
        obtain ⟨v, hv, h⟩ := Option.bind_eq_some_iff.1 h
        obtain ⟨r, hr, h⟩ := Option.bind_eq_some_iff.1 h
        cases h
        obtain ⟨as, cs, rfl, hc⟩ := (keyOf_re c k).1 hk
        obtain ⟨ps, rfl, rfl, hp⟩ := (ih r).1 hr
        exact ⟨((as, cs, k), c', v) :: ps, rfl, rfl, fun p h => by
          rcases List.mem_cons.1 h with rfl | h
          · exact ⟨hc, hv⟩
          · exact hp p h⟩
      · rintro ⟨ps, h, rfl, hp⟩
        cases ps with
        | nil => simp at h
        | cons p ps =>
          rw [List.flatMap_cons, List.cons_append, List.cons_append, List.nil_append, List.cons.injEq, List.cons.injEq] at h
          obtain ⟨rfl, rfl, h⟩ := h
          have h0 := hp p (by simp)
          rw [(keyOf_re _ _).2 ⟨_, _, rfl, h0.1⟩]
          show (do
            let v ← value lio (reNode p.2.1)
            let l ← entries lio none (ms.map reNode)
            some ((p.1.2.2, v) :: l)) = _
          rw [h0.2, (ih _).2 ⟨ps, h, rfl, fun q hq => hp q (by simp [hq])⟩]
          rfl

theorem node_induction {P : Node → Prop} (he : ∀ n as cs, (∀ c ∈ cs, P c) → P (.elem n as cs)) (ht : ∀ s, P (.text s)) (hd : ∀ s, P (.cdata s))
    (hc : ∀ s, P (.comment s)) (hp : ∀ s, P (.pi s)) : ∀ c, P c
  | .elem n as cs => he n as cs fun c hm => by
      have := List.sizeOf_lt_of_mem hm
      exact node_induction he ht hd hc hp c
  | .text s => ht s
  | .cdata s => hd s
  | .comment s => hc s
  | .pi s => hp s
termination_by c => sizeOf c
decreasing_by simp_wf; omega

theorem readInt_iff (s : Str) (i : Int) : readInt s = some i ↔ IntText s i ∧ -(2 ^ 63) ≤ i ∧ i < 2 ^ 64 := by
  unfold readInt
  constructor
  · intro h
    split at h
    · next r =>
      split at h
      · next n hn =>
        split at h
        · cases h
          exact ⟨⟨true, r, n, Or.inl ⟨rfl, rfl⟩, parseNat_iff.1 hn, rfl⟩, by omega, by omega⟩
        · cases h
      · cases h
    · obtain ⟨n, hn, rfl⟩ := Option.map_eq_some_iff.1 h
      obtain ⟨h1, h2⟩ := (parseUnsigned_iff (by decide) _ _ _).1 hn
      refine ⟨?_, by simp only [Int.ofNat_eq_natCast]; omega, by simp only [Int.ofNat_eq_natCast]; omega⟩
      rcases h1 with h1 | ⟨r, rfl, h1⟩
      · exact ⟨false, s, n, Or.inr (Or.inr ⟨rfl, rfl⟩), h1, rfl⟩
      · exact ⟨false, r, n, Or.inr (Or.inl ⟨rfl, rfl⟩), h1, rfl⟩
  · rintro ⟨⟨neg, body, n, hs, hn, rfl⟩, hl, hu⟩
    rcases hs with ⟨rfl, rfl⟩ | ⟨rfl, rfl⟩ | ⟨rfl, rfl⟩
    · simp only [parseNat_iff.2 hn]
      rw [if_pos (by simp at hl; omega)]
      rfl
    · have : parseUnsigned 10 (2 ^ 64) ('+' :: body) = some n := (parseUnsigned_iff (by decide) _ _ _).2 ⟨Or.inr ⟨body, rfl, hn⟩, by simp at hu; omega⟩
      simp only [this]
      rfl
    · have h2 := (parseUnsigned_iff (by decide) (2 ^ 64) s n).2 ⟨Or.inl hn, by simp at hu; omega⟩
      split
      · next r => exact absurd rfl ((numeral_nosign hn).2 r)
      · rw [h2]; rfl

theorem value_iff (lio : LeafIO L) : ∀ (c : Node) (v : PVal L), value lio (reNode c) = some v ↔ ValueSays lio c v := by
  refine node_induction ?_ ?_ ?_ ?_ ?_
  case refine_1 =>
    intro n as cs ih v
    have hm : ∀ c ∈ matter cs, ¬ Passed c := fun c hc => (matter_mem hc).2
    have hall : (cs.map reNode).all ignored = true ↔ matter cs = [] := by
      rw [List.all_map, List.all_eq_true]
      simp [matter, List.filter_eq_nil_iff, ignored_re]
    simp only [reNode, reNodes_eq]
    constructor
    · intro h
      rw [value] at h
      split at h
      · next hn =>
        subst hn
        obtain ⟨s, hs, rfl⟩ := Option.map_eq_some_iff.1 h
        exact .str ((chars_re cs s).1 hs)
      split at h
      · next hn =>
        subst hn
        obtain ⟨i, hi, rfl⟩ := Option.map_eq_some_iff.1 h
        obtain ⟨s, hs, hi⟩ := Option.bind_eq_some_iff.1 hi
        obtain ⟨h1, h2, h3⟩ := (readInt_iff s i).1 hi
        exact .int ((chars_re cs s).1 hs) h1 h2 h3
      split at h
      · next hn =>
        subst hn
        obtain ⟨i, hi, rfl⟩ := Option.map_eq_some_iff.1 h
        obtain ⟨s, hs, hi⟩ := Option.bind_eq_some_iff.1 hi
        exact .real ((chars_re cs s).1 hs) ((C79_float (by decide) s i).1 hi)
      split at h
      · next hn =>
        subst hn
        split at h
        · next ha => cases h; exact .true (hall.1 ha)
        · cases h
      split at h
      · next hn =>
        subst hn
        split at h
        · next ha => cases h; exact .false (hall.1 ha)
        · cases h
      split at h
      · next hn =>
        subst hn
        obtain ⟨l, hl, rfl⟩ := Option.map_eq_some_iff.1 h
        rw [values_matter, values_iff lio _ hm] at hl
        obtain ⟨ps, h1, rfl, h3⟩ := hl
        refine .array ps h1 fun p hp => (ih p.1 ?_ p.2).1 (h3 p hp)
        exact (matter_mem (h1 ▸ List.mem_map.2 ⟨p, hp, rfl⟩)).1
      split at h
      · next hn =>
        subst hn
        obtain ⟨l, hl, rfl⟩ := Option.map_eq_some_iff.1 h
        rw [entries_matter, entries_iff lio _ _ (Nat.le_refl _) hm] at hl
        obtain ⟨ps, h1, rfl, h3⟩ := hl
        refine .dict ps h1 (fun p hp => (h3 p hp).1) (fun p hp => (ih p.2.1 ?_ p.2.2).1 (h3 p hp).2) (dictOf_gather _)
        exact (matter_mem (h1 ▸ List.mem_flatMap.2 ⟨p, hp, by simp⟩)).1
      split at h
      · next hn =>
        obtain ⟨i, hi, rfl⟩ := Option.map_eq_some_iff.1 h
        obtain ⟨s, hs, hi⟩ := Option.bind_eq_some_iff.1 hi
        exact .leaf hn ((chars_re cs s).1 hs) hi
      · cases h
    · intro h
      rw [value]
      cases h with
      | str h => rw [if_pos rfl, (chars_re cs _).2 h]; rfl
      | int h hi hl hu =>
        rw [if_neg (by decide), if_pos rfl, (chars_re cs _).2 h, Option.bind_some, (readInt_iff _ _).2 ⟨hi, hl, hu⟩]; rfl
      | real h hx =>
        rw [if_neg (by decide), if_neg (by decide), if_pos rfl, (chars_re cs _).2 h, Option.bind_some, (C79_float (by decide) _ _).2 hx]; rfl
      | true h => rw [if_neg (by decide), if_neg (by decide), if_neg (by decide), if_pos rfl, if_pos (hall.2 h)]
      | false h => rw [if_neg (by decide), if_neg (by decide), if_neg (by decide), if_neg (by decide), if_pos rfl, if_pos (hall.2 h)]
      | leaf hn h hx =>
        rcases hn with rfl | rfl <;>
        · simp only [String.reduceEq, if_false, if_true, or_false, or_true, (chars_re cs _).2 h, Option.bind_some, hx, Option.map_some]
      | array ps h1 h2 =>
        simp only [String.reduceEq, if_false, if_true]
        rw [values_matter, (values_iff lio _ hm _).2 ⟨ps, h1, rfl, fun p hp => (ih p.1 (matter_mem (h1 ▸ List.mem_map.2 ⟨p, hp, rfl⟩)).1 p.2).2 (h2 p hp)⟩]
        rfl
      | dict ps h1 hk h2 hd =>
        simp only [String.reduceEq, if_false, if_true]
        rw [entries_matter, (entries_iff lio _ _ (Nat.le_refl _) hm _).2 ⟨ps, h1, rfl, fun p hp =>
          ⟨hk p hp, (ih p.2.1 (matter_mem (h1 ▸ List.mem_flatMap.2 ⟨p, hp, by simp⟩)).1 p.2.2).2 (h2 p hp)⟩⟩, dictOf_iff.1 hd]
        rfl
  all_goals intro s v; exact ⟨fun h => (nomatch h), fun h => (nomatch h)⟩

theorem ofDocument_iff (lio : LeafIO L) (e : Element) (n : String) (as : List (String × Str)) (d : Dict L) :
    ofDocument lio { name := n, attrs := as, children := e.children.map reNode } = some d ↔ LibTells lio e d := by
  have hm : ∀ c ∈ matter e.children, ¬ Passed c := fun c hc => (matter_mem hc).2
  unfold ofDocument LibTells
  simp only
  rw [values_matter]
  constructor
  · intro h
    split at h
    · next d' hv =>
      cases h
      obtain ⟨ps, h1, h2, h3⟩ := (values_iff lio _ hm _).1 hv
      cases ps with
      | nil => cases h2
      | cons p ps =>
        rw [List.map_cons, List.cons.injEq] at h2
        have := List.map_eq_nil_iff.1 h2.2.symm
        subst this
        refine ⟨p.1, h1, (value_iff lio _ _).1 ?_⟩
        rw [h3 p (by simp), ← h2.1]
    · cases h
  · rintro ⟨c, hc, hv⟩
    have := (values_iff lio _ hm [.dict d]).2 ⟨[(c, .dict d)], hc, rfl, fun p hp => by
      rw [List.mem_singleton.1 hp]; exact (value_iff lio _ _).2 hv⟩
    rw [this]

/-! ## Printing and parsing the lib -/

open XmlText (lines printNode printNodes escText printAttr print declaration)

/-- What can be spelled. -/
inductive Tellable : Node → Prop
  | elem (n as cs) (hn : XmlName n) (ha : CharAttrs as) (hc : ∀ c ∈ cs, Tellable c) (hs : Apart cs) : Tellable (.elem n as cs)
  | text (s) (h : ∀ c ∈ s, XmlChar c) (hb : ¬ Blank s) : Tellable (.text s)
  | same (c) (h : Sayable c) (he : ∀ n as cs, c ≠ .elem n as cs) (hr : reNode c = c) : Tellable c

theorem ref_char {c : Char} {r : Str} (h : CharRef c r) : XmlChar c := by
  cases h with
  | dec _ h => exact h
  | hex _ h => exact h
  | _ => decide

theorem text_chars {stands : Char → Char → Prop} (hs : ∀ c d, stands c d → XmlChar c) {v s : Str} (h : SpellsText stands v s) : ∀ c ∈ v, XmlChar c := by
  induction h with
  | nil => simp
  | char h _ ih => intro c hc; rcases List.mem_cons.1 hc with rfl | hc; exacts [hs _ _ h, ih c hc]
  | ref h _ ih => intro c hc; rcases List.mem_cons.1 hc with rfl | hc; exacts [ref_char h, ih c hc]

theorem attr_chars {as : List (String × Str)} {s : Str} (h : SpellsAttrs as s) : ∀ a ∈ as, XmlName a.1 ∧ ∀ c ∈ a.2, XmlChar c := by
  induction h with
  | nil => simp
  | cons h _ ih =>
    intro a ha
    rcases List.mem_cons.1 ha with rfl | ha
    · cases h with
      | mk hk _ _ _ _ _ hv =>
        refine ⟨hk, text_chars (fun c d h => ?_) hv⟩
        rcases h.2.2.2.2.2 with ⟨_, rfl⟩ | ⟨_, _, rfl⟩
        · decide
        · exact h.1
    · exact ih a ha

theorem joined_apart {b : Prop} {ps : List (Node × Str)} {r : Str} (h : Joined b ps r) :
    Apart (ps.map (·.1)) ∧ (b → ∀ s, (ps.map (·.1)).head? ≠ some (.text s)) := by
  induction h with
  | nil _ _ => exact ⟨fun i s t h => by simp at h, fun _ s h => by simp at h⟩
  | @cons b w c s ps r _ _ hb _ ih =>
    refine ⟨fun i s t h h' => ?_, fun h s he => ?_⟩
    · cases i with
      | zero =>
        simp only [List.map_cons, List.getElem?_cons_zero, Option.some.injEq] at h
        rw [List.map_cons, List.getElem?_cons_succ, ← List.head?_eq_getElem?] at h'
        exact ih.2 (by rw [h]; trivial) t h'
      | succ i =>
        rw [List.map_cons, List.getElem?_cons_succ] at h h'
        exact ih.1 i s t h h'
    · simp only [List.map_cons, List.head?_cons, Option.some.injEq] at he
      exact hb ⟨h, by rw [he]; trivial⟩

theorem spells_tellable {c : Node} {s : Str} (h : Spells c s) : Tellable c := by
  induction h with
  | elem hn hd ha _ hj _ ih =>
    refine .elem _ _ _ hn ⟨hd, attr_chars ha⟩ (fun c hc => ?_) (joined_apart hj).1
    obtain ⟨p, hp, rfl⟩ := List.mem_map.1 hc
    exact ih p hp
  | empty hn hd ha => exact .elem _ _ _ hn ⟨hd, attr_chars ha⟩ (by simp) (fun i s t h => by simp at h)
  | text h hb => exact .text _ (text_chars (fun c d h => by rw [h.2.2.2.2]; exact h.1) h) hb
  | cdata h he => exact .same _ (.cdata _ h he) (fun _ _ _ h => (nomatch h)) rfl
  | comment h he => exact .same _ (.comment _ h he) (fun _ _ _ h => (nomatch h)) rfl
  | pi h he => exact .same _ (.pi _ h he) (fun _ _ _ h => (nomatch h)) rfl

theorem reText (c : Node) : IsText (reNode c) ↔ IsText c := by cases c <;> simp [reNode, IsText]

theorem printed_head (lay : XmlText.Layout) (d : Nat) (c : Node) (h : ¬ IsText c) (r : Str) : (printNode lay d c ++ r).head? ≠ some '\n' := by
  cases c with
  | elem n as cs =>
    cases cs with
    | nil => rw [XmlText.printNode_nil]; simp
    | cons c cs => rw [XmlText.printNode_cons]; simp
  | text s => exact absurd trivial h
  | cdata s => rw [XmlText.printNode_cdata]; simp
  | comment s => rw [XmlText.printNode_comment]; simp
  | pi s => rw [XmlText.printNode_pi]; simp

theorem joined_told (d : Nat) (cs : List Node) (hs : Apart cs) : ∀ (b : Prop) done, (b → ∀ s, cs.head? ≠ some (.text s)) →
    Joined b (cs.map fun c => (reNode c, lines (printNode plain d c))) (lines (printNodes plain d done cs)) := by
  induction cs with
  | nil =>
    intro b done _
    rw [List.map_nil, XmlText.printNodes_nil]
    exact .nil gap_nil fun _ => rfl
  | cons c cs ih =>
    intro b done hb
    have hw : (if XmlText.Node.isChars c then [] else plain.before d done) = [] := by split <;> rfl
    rw [List.map_cons, XmlText.printNodes_cons, hw, List.nil_append]
    have hsplit : lines (printNode plain d c ++ printNodes plain d (done ++ [c]) cs) =
        lines (printNode plain d c) ++ lines (printNodes plain d (done ++ [c]) cs) := by
      apply lines_append
      by_cases ht : IsText c
      · right
        cases cs with
        | nil => rw [XmlText.printNodes_nil]; simp
        | cons c' cs =>
          have hw' : (if XmlText.Node.isChars c' then [] else plain.before d (done ++ [c])) = [] := by split <;> rfl
          rw [XmlText.printNodes_cons, hw', List.nil_append]
          refine printed_head _ _ _ (fun ht' => ?_) _
          obtain ⟨s, rfl⟩ := (isText_iff c).1 ht
          obtain ⟨t, rfl⟩ := (isText_iff c').1 ht'
          exact hs 0 s t rfl rfl
      · exact Or.inl (printed_last plain d c ht)
    rw [hsplit]
    have := Joined.cons (b := b) (w := []) (c := reNode c) (s := lines (printNode plain d c)) gap_nil (fun _ => rfl) (fun ⟨h1, h2⟩ => by
      obtain ⟨s, rfl⟩ := (isText_iff c).1 ((reText c).1 h2)
      exact hb h1 s rfl) (ih (XmlText.apart_tail hs) (IsText (reNode c)) (done ++ [c]) (fun h s he => by
      obtain ⟨t, rfl⟩ := (isText_iff c).1 ((reText c).1 h)
      refine hs 0 t s rfl ?_
      rw [List.getElem?_cons_succ, ← List.head?_eq_getElem?, he]))
    simpa using this

theorem spells_told {c : Node} (h : Tellable c) : ∀ d, Spells (reNode c) (lines (printNode plain d c)) := by
  induction h with
  | elem n as cs hn ha hc hs ih =>
    intro d
    have hnd : ((untabs as).map (·.1)).Nodup := by rw [untabs_names]; exact ha.1
    rw [reNode, reNodes_eq]
    cases cs with
    | nil =>
      rw [List.map_nil, XmlText.printNode_nil, XmlText.lines_eq]
      · exact .empty hn hnd (spells_attrs_untab as ha.2)
      · rw [List.mem_append, not_or]; exact ⟨tag_no_cr hn ha, by decide⟩
    | cons c cs =>
      have := Spells.elem (ps := (c :: cs).map fun c => (reNode c, lines (printNode plain (d + 1) c))) (w := []) hn hnd (spells_attrs_untab as ha.2)
        (fun p hp => by obtain ⟨x, hx, rfl⟩ := List.mem_map.1 hp; exact ih x hx (d + 1)) (joined_told (d + 1) (c :: cs) hs False [] (fun h => h.elim))
        (by simp [White])
      rw [List.map_map] at this
      have he : lines (printNode plain d (.elem n as (c :: cs))) = '<' :: n.toList ++ as.flatMap printAttr ++
          '>' :: lines (printNodes plain (d + 1) [] (c :: cs)) ++ '<' :: '/' :: n.toList ++ [] ++ ['>'] := by
        rw [← lines_elem hn ha, XmlText.printNode_cons]
        simp [plain]
      rw [he]
      exact this
  | text s h hb =>
    intro d
    rw [XmlText.printNode_text, lines_esc, reNode]
    exact .text (spells_text_esc _ (plain_lines h)) fun hh => hb ((blank_lines s).1 hh)
  | same c h he hr =>
    intro d
    rw [hr, XmlText.lines_eq _ (XmlText.printed_cr plain lays_plain _ h d)]
    exact spells_print plain lays_plain h d

theorem parse_told {e : Element} (h : Tellable e.node) :
    XmlText.parse (print plain e) = some { name := e.name, attrs := untabs e.attrs, children := e.children.map reNode } := by
  refine C140_parse ⟨declaration ++ ['\n'], lines (printNode plain 0 e.node), [], ?_, ?_, .gap gap_nil, ?_⟩
  · have := Around.pi (w := []) (s := "xml version=\"1.0\" encoding=\"UTF-8\"".toList) (r := ['\n']) gap_nil (by decide +kernel) (by decide +kernel)
      (.gap (white_gap (by simp [White])))
    simpa [declaration] using this
  · have := spells_told h 0
    rwa [show reNode e.node = .elem e.name (untabs e.attrs) (e.children.map reNode) by rw [Element.node, reNode, reNodes_eq]] at this
  · rw [lines_iff, show print plain e = (declaration ++ ['\n']) ++ printNode plain 0 e.node by simp [print], lines_front (by decide +kernel),
      List.append_nil]

theorem fromXml_told (lio : LeafIO L) (lay : XmlText.Layout) {e : Element} (h : Tellable e.node) :
    ∃ o, (io lio lay).fromXml { name := "plist", attrs := e.attrs, children := e.children } = some o ∧ ∀ d, o = some d ↔ LibTells lio e d := by
  refine ⟨_, rfl, fun d => ?_⟩
  have ht : Tellable (Element.node { name := "plist", attrs := e.attrs, children := e.children }) := by
    cases h with
    | elem _ _ _ hn ha hc hs => exact .elem "plist" _ _ (by decide) ha hc hs
    | same _ h he hr => exact absurd rfl (he _ _ _)
  rw [parse_told ht]
  exact ofDocument_iff lio e _ _ d

/-! ## What is in a lib that was read -/

theorem content_chars {cs : List Node} {s : Str} (h : Content cs s) (ht : ∀ c ∈ cs, Tellable c) :
    (∀ c ∈ s, XmlChar c ∧ c ≠ '\r') ∧ ((∀ c ∈ cs, ¬ HasCdata c) → Blank s → s = []) := by
  induction h with
  | nil => exact ⟨by simp, fun _ _ => rfl⟩
  | @text t cs u _ ih =>
    have ih := ih fun c hc => ht c (by simp [hc])
    have h1 : (∀ c ∈ t, XmlChar c) ∧ ¬ Blank t := by
      cases ht _ (List.mem_cons_self ..) with
      | text _ h hb => exact ⟨h, hb⟩
      | same _ h _ hr => cases h with | text _ h hb => exact ⟨fun c hc => (h c hc).1, hb⟩
    rw [unix_lines]
    refine ⟨fun c hc => ?_, fun _ hb => absurd ((blank_lines t).1 fun c hc => hb c (by simp [hc])) h1.2⟩
    rcases List.mem_append.1 hc with hc | hc
    · exact plain_lines h1.1 c hc
    · exact ih.1 c hc
  | @cdata t cs u _ ih =>
    have ih := ih fun c hc => ht c (by simp [hc])
    refine ⟨fun c hc => ?_, fun hn => absurd (.here t) (hn _ (List.mem_cons_self ..))⟩
    rcases List.mem_append.1 hc with hc | hc
    · cases ht _ (List.mem_cons_self ..) with
      | same _ h => cases h with | cdata _ h _ => exact h c hc
    · exact ih.1 c hc
  | comment _ ih => exact (ih fun c hc => ht c (by simp [hc])).imp_right fun h hn => h fun c hc => hn c (by simp [hc])
  | pi _ ih => exact (ih fun c hc => ht c (by simp [hc])).imp_right fun h hn => h fun c hc => hn c (by simp [hc])

theorem firstKeys_nodup (ks : List Str) : (firstKeys ks).Nodup := by
  induction ks with
  | nil => simp [firstKeys]
  | cons k ks ih => exact List.nodup_cons.2 ⟨by simp, ih.filter _⟩

theorem tellable_children {n : String} {as : List (String × Str)} {cs : List Node} (h : Tellable (.elem n as cs)) : ∀ c ∈ cs, Tellable c := by
  cases h with
  | elem _ _ _ _ _ hc _ => exact hc
  | same _ _ he _ => exact absurd rfl (he _ _ _)

theorem says_facts {lio : LeafIO L} {c : Node} {v : PVal L} (h : ValueSays lio c v) (ht : Tellable c) :
    Holdable v ∧ (∀ ch, Utters ch v → XmlChar ch ∧ ch ≠ '\r') ∧ (¬ HasCdata c → Audible v) := by
  induction h with
  | str h =>
    have := content_chars h (tellable_children ht)
    exact ⟨.str _, fun ch hc => by cases hc with | str _ hc => exact this.1 ch hc,
      fun hn => .str _ (this.2 fun c hc hh => hn (.child _ _ _ c hc hh))⟩
  | int h hi hl hu => exact ⟨.int _ hl hu, fun _ hc => (nomatch hc), fun _ => .int _⟩
  | real h hx => exact ⟨.real _, fun _ hc => (nomatch hc), fun _ => .real _⟩
  | true h => exact ⟨.bool _, fun _ hc => (nomatch hc), fun _ => .bool _⟩
  | false h => exact ⟨.bool _, fun _ hc => (nomatch hc), fun _ => .bool _⟩
  | leaf hn h hx => exact ⟨.leaf _, fun _ hc => (nomatch hc), fun _ => .leaf _⟩
  | array ps hm h ih =>
    have hmem : ∀ p ∈ ps, p.1 ∈ _ := fun p hp => (matter_mem (hm ▸ List.mem_map.2 ⟨p, hp, rfl⟩)).1
    have ih' := fun p hp => ih p hp (tellable_children ht _ (hmem p hp))
    refine ⟨.array _ fun v hv => ?_, fun ch hc => ?_, fun hn => .array _ fun v hv => ?_⟩
    · obtain ⟨p, hp, rfl⟩ := List.mem_map.1 hv
      exact (ih' p hp).1
    · cases hc with
      | array _ v hv hc =>
        obtain ⟨p, hp, rfl⟩ := List.mem_map.1 hv
        exact (ih' p hp).2.1 ch hc
    · obtain ⟨p, hp, rfl⟩ := List.mem_map.1 hv
      exact (ih' p hp).2.2 fun hh => hn (.child _ _ _ _ (hmem p hp) hh)
  | @dict as cs d ps hm hk h hd ih =>
    have hmem : ∀ p ∈ ps, Node.elem "key" p.1.1 p.1.2.1 ∈ cs ∧ p.2.1 ∈ cs := fun p hp =>
      ⟨(matter_mem (hm ▸ List.mem_flatMap.2 ⟨p, hp, by simp⟩)).1, (matter_mem (hm ▸ List.mem_flatMap.2 ⟨p, hp, by simp⟩)).1⟩
    have ih' := fun p hp => ih p hp (tellable_children ht _ (hmem p hp).2)
    have hkey := fun p hp => content_chars (hk p hp) (tellable_children (tellable_children ht _ (hmem p hp).1))
    have hent : ∀ e ∈ d, ∃ p ∈ ps, e = (p.1.2.2, p.2.2) := by
      intro e he
      obtain ⟨a, b, hab, -⟩ := hd.2 e.1 e.2 he
      have : (e.1, e.2) ∈ ps.map fun p => (p.1.2.2, p.2.2) := by rw [hab]; simp
      obtain ⟨p, hp, hpe⟩ := List.mem_map.1 this
      exact ⟨p, hp, hpe.symm⟩
    refine ⟨.dict _ (by rw [hd.1]; exact firstKeys_nodup _) fun e he => ?_, fun ch hc => ?_, fun hn => .dict _ (fun e he => ?_) fun e he => ?_⟩
    · obtain ⟨p, hp, rfl⟩ := hent e he
      exact (ih' p hp).1
    · cases hc with
      | key _ e he hc =>
        obtain ⟨p, hp, rfl⟩ := hent e he
        exact (hkey p hp).1 ch hc
      | dict _ e he hc =>
        obtain ⟨p, hp, rfl⟩ := hent e he
        exact (ih' p hp).2.1 ch hc
    · obtain ⟨p, hp, rfl⟩ := hent e he
      exact (hkey p hp).2 fun c hc hh => hn (.child _ _ _ _ (hmem p hp).1 (.child _ _ _ c hc hh))
    · obtain ⟨p, hp, rfl⟩ := hent e he
      exact (ih' p hp).2.2 fun hh => hn (.child _ _ _ _ (hmem p hp).2 hh)

/-! ## C141 -/

theorem named_child {n : String} {cs : List Node} {e : Element} (h : (named n cs).head? = some e) : e.node ∈ cs := by
  have := List.mem_of_head? h
  unfold named at this
  obtain ⟨c, hc, he⟩ := List.mem_filterMap.1 this
  split at he
  · split at he
    · cases he; exact hc
    · cases he
  · cases he

/-- **C141.** A lib says one dictionary at most. -/
theorem C141_unambiguous {lio : LeafIO L} {e : Element} {d d' : Dict L} (h : LibTells lio e d) (h' : LibTells lio e d') : d = d' :=
  Option.some.inj (((ofDocument_iff lio e "plist" [] d).2 h).symm.trans ((ofDocument_iff lio e "plist" [] d').2 h'))

/-- **C141.** The lib of a glyph that was read is the dictionary that the `<lib>` of the file says, and there is none if it
says none. -/
theorem C141_lib (mid : IOF → IOF → IOF) (lio : LeafIO L) (lay lay' : XmlText.Layout) (ped : Pedantry) (t : Str) (g : Glif PD (Dict L))
    (h : readText mid (io lio lay) (XmlText.io lay') ped t = .ok g) :
    ∃ root, SpellsDoc root t ∧ ((named "lib" root.children).head? = none → g.lib = .none) ∧
      ∀ e, (named "lib" root.children).head? = some e →
        (∀ d, g.lib = .plist d ↔ LibTells lio e d) ∧ (g.lib = .none ↔ ¬ ∃ d, LibTells lio e d) ∧ ∀ x, g.lib ≠ .xml x := by
  unfold readText at h
  obtain ⟨root, hr, h⟩ := bind_eq_ok.1 h
  have hp : XmlText.parse t = some root := by
    rw [show (XmlText.io lay').parse t = XmlText.parse t from rfl] at hr
    cases hq : XmlText.parse t with
    | none => rw [hq] at hr; cases hr
    | some r => rw [hq] at hr; cases hr; rfl
  have hs := (C140_exact root t).1 hp
  have hsays := C85_says mid (io lio lay) ped root g h
  refine ⟨root, hs, hsays.noLib, fun e he => ?_⟩
  obtain ⟨_, s, _, _, hsp, _, _⟩ := hs
  have ht : Tellable e.node := tellable_children (spells_tellable hsp) _ (named_child he)
  obtain ⟨o, ho, hd⟩ := fromXml_told lio lay ht
  rcases hsays.lib e he with ⟨h1, -⟩ | ⟨h1, h2⟩ | ⟨d, h1, h2⟩
  · rw [h1] at ho; cases ho
  · rw [h1] at ho
    cases ho
    exact ⟨fun d => ⟨fun h => (by rw [h2] at h; cases h), fun h => absurd ((hd d).2 h) (by simp)⟩,
      ⟨fun _ ⟨d, h⟩ => absurd ((hd d).2 h) (by simp), fun _ => h2⟩, fun x h => by rw [h2] at h; cases h⟩
  · rw [h1] at ho
    cases ho
    refine ⟨fun d' => ⟨fun h => ?_, fun h => ?_⟩, ⟨fun h => (by rw [h2] at h; cases h), fun h => absurd ⟨d, (hd d).1 rfl⟩ h⟩, fun x h => by rw [h2] at h; cases h⟩
    · rw [h2] at h; cases h; exact (hd _).1 rfl
    · have := (hd d').2 h
      cases this
      exact h2

/-- **C141.** A lib that was read comes back as itself when it is saved, exactly if no string and no key in it is white space
and nothing else; and there is none such unless the file has character data sections in the lib. -/
theorem C141_saved (mid : IOF → IOF → IOF) {lio : LeafIO L} (hl : LeafLaws lio) (lay lay' : XmlText.Layout) (hy : Lays lay) (ped : Pedantry)
    (t : Str) (g : Glif PD (Dict L)) (d : Dict L) (h : readText mid (io lio lay) (XmlText.io lay') ped t = .ok g) (hd : g.lib = .plist d) :
    (ComesBack (io lio lay) d d ↔ Audible (.dict d)) ∧
    ∃ root e, SpellsDoc root t ∧ (named "lib" root.children).head? = some e ∧ (¬ HasCdata e.node → Audible (.dict d)) := by
  obtain ⟨root, hs, h0, h1⟩ := C141_lib mid lio lay lay' ped t g h
  cases he : (named "lib" root.children).head? with
  | none => rw [h0 he] at hd; cases hd
  | some e =>
    obtain ⟨c, hm, hv⟩ := ((h1 e he).1 d).1 hd
    have hs' := hs
    obtain ⟨_, s, _, _, hsp, _, _⟩ := hs'
    have ht : Tellable e.node := tellable_children (spells_tellable hsp) _ (named_child he)
    have hc : c ∈ e.children := (matter_mem (hm ▸ List.mem_singleton.2 rfl)).1
    obtain ⟨f1, f2, f3⟩ := says_facts hv (tellable_children ht c hc)
    exact ⟨⟨fun h => ((C127_all hl lay hy d f1).1 h).1, fun h => (C127_all hl lay hy d f1).2 ⟨h, f2⟩⟩,
      root, e, hs, he, fun hn => f3 fun hh => hn (.child _ _ _ c hc hh)⟩

/-! ## Samples -/

/-- A lib with comments, with a key that is there twice, and with a string in two pieces. -/
def Sample.told : Element :=
  { name := "lib"
    children := [.comment "c".toList, .elem "dict" []
      [.elem "key" [] [.text "a".toList], .comment [], .elem "true" [] [],
        .elem "key" [] [.text "b".toList], .elem "integer" [] [.text "-7".toList],
        .elem "key" [] [.text "a".toList], .elem "string" [] [.text "x".toList, .comment [], .cdata "\ny".toList]]] }

example (lio : LeafIO L) : LibTells lio Sample.told [("a".toList, .str "x\ny".toList), ("b".toList, .int (-7))] :=
  (ofDocument_iff lio Sample.told "plist" [] _).1 rfl

/-- A dictionary that is not the only thing in the lib is not read. -/
example (lio : LeafIO L) (d : Dict L) : ¬ LibTells lio { name := "lib", children := [.elem "dict" [] [], .elem "dict" [] []] } d := fun h => by
  obtain ⟨c, hc, -⟩ := h
  rw [show matter [Node.elem "dict" [] [], .elem "dict" [] []] = [.elem "dict" [] [], .elem "dict" [] []] from rfl] at hc
  cases hc

/-- The nested dictionary is in the text of a glyph that is read. -/
example (mid : IOF → IOF → IOF) : ∃ t, ∃ g : Glif PD _, readText mid (io Sample.dates64 .indented) (XmlText.io .indented) {} t = .ok g ∧ g.lib = .plist Sample.nested := by
  obtain ⟨s, g', -, hr, hlib, -⟩ := C127_partial (PD := PD) mid dates_laws .indented .indented lays_indented lays_indented { name := "a".toList } Sample.nested
    ⟨fun o h => (nomatch h), fun w h => (nomatch h), fun a h => (nomatch h), trivial⟩
    ⟨attr_ascii (s := "a".toList) (by decide), fun a h => (nomatch h), fun o h => (nomatch h), fun c h => (nomatch h),
      fun i h => (nomatch h), fun l h => (nomatch h), fun k h => (nomatch h), fun d h => (nomatch h), fun e h => (nomatch h)⟩
    (fun n h => (nomatch h)) nested_printable nested_audible
  exact ⟨s, g', hr, hlib⟩

/-- A space in a character data section is read, and does not come back when it is saved. -/
example : LibTells Sample.dates64 { name := "lib", children := [.elem "dict" [] [.elem "key" [] [.text "k".toList],
      .elem "string" [] [.cdata " ".toList]]] } Sample.spaced ∧
    ¬ ComesBack (io Sample.dates64 .indented) Sample.spaced Sample.spaced :=
  ⟨(ofDocument_iff Sample.dates64 _ "plist" [] _).1 rfl, fun h => by
    cases (C127_exact dates_laws .indented lays_indented _ spaced_printable).1 h with
    | dict _ hk hv =>
      cases hv _ (List.mem_singleton.2 rfl) with
      | str _ h => exact absurd (h (by decide)) (by decide)⟩

end GP
