import Verif.Spec.Plist
import Verif.Props.XmlText
/-!
# Lemmas on property lists
-/
open Fl Fl.Text
namespace GP.Plist
open Spec
variable {L : Type}

/-! ## Gathering -/

theorem insertEntry_new {k : Str} {v : PVal L} {d : Dict L} (h : k ∉ d.map (·.1)) : insertEntry k v d = d ++ [(k, v)] := by
  induction d with
  | nil => rfl
  | cons e d ih =>
    obtain ⟨k', v'⟩ := e
    rw [List.map_cons, List.mem_cons, not_or] at h
    unfold insertEntry
    rw [if_neg (fun he => h.1 he.symm), ih h.2]; rfl

theorem insertEntry_keys (k : Str) (v : PVal L) (d : Dict L) :
    (insertEntry k v d).map (·.1) = if k ∈ d.map (·.1) then d.map (·.1) else d.map (·.1) ++ [k] := by
  induction d with
  | nil => rfl
  | cons e d ih =>
    obtain ⟨k', v'⟩ := e
    unfold insertEntry
    by_cases he : k' = k
    · simp [he]
    · rw [if_neg he, List.map_cons, ih]
      by_cases hm : k ∈ d.map (·.1)
      · rw [if_pos hm, if_pos (by simpa using Or.inr (by simpa using hm))]; rfl
      · rw [if_neg hm, if_neg (by rw [List.map_cons, List.mem_cons, not_or]; exact ⟨fun h => he h.symm, hm⟩)]; rfl

theorem insertEntry_mem {k : Str} {v : PVal L} {d : Dict L} {e : Str × PVal L} (h : e ∈ insertEntry k v d) : e = (k, v) ∨ e ∈ d := by
  induction d with
  | nil => exact Or.inl (by simpa [insertEntry] using h)
  | cons e' d ih =>
    obtain ⟨k', v'⟩ := e'
    unfold insertEntry at h
    split at h
    · rcases List.mem_cons.1 h with h | h
      · exact Or.inl h
      · exact Or.inr (List.mem_cons_of_mem _ h)
    · rcases List.mem_cons.1 h with h | h
      · exact Or.inr (by simp [h])
      · exact (ih h).imp id (List.mem_cons_of_mem _)

theorem insertEntry_nodup {k : Str} {v : PVal L} {d : Dict L} (h : (d.map (·.1)).Nodup) : ((insertEntry k v d).map (·.1)).Nodup := by
  rw [insertEntry_keys]
  split
  · exact h
  · next hm => exact List.nodup_append.2 ⟨h, by simp, fun a ha b hb => by rw [List.mem_singleton.1 hb]; rintro rfl; exact hm ha⟩

/-- The entries added one after another. -/
abbrev added (d m : Dict L) : Dict L := m.foldl (fun d e => insertEntry e.1 e.2 d) d

theorem added_new {d m : Dict L} (h : ((d ++ m).map (·.1)).Nodup) : added d m = d ++ m := by
  induction m generalizing d with
  | nil => simp [added]
  | cons e m ih =>
    have hk : e.1 ∉ d.map (·.1) := fun hm => by
      rw [List.map_append, List.map_cons] at h
      exact (List.nodup_append.1 h).2.2 _ hm _ (List.mem_cons_self) rfl
    show added (insertEntry e.1 e.2 d) m = _
    rw [insertEntry_new hk, ih (by simpa using h)]
    simp

theorem added_length {d m : Dict L} (hd : (d.map (·.1)).Nodup) : (added d m).length ≤ d.length + m.length ∧
    ((added d m).length = d.length + m.length → ((d ++ m).map (·.1)).Nodup) := by
  induction m generalizing d with
  | nil => simpa [added] using hd
  | cons e m ih =>
    have hl := congrArg List.length (insertEntry_keys e.1 e.2 d)
    obtain ⟨h1, h2⟩ := ih (insertEntry_nodup (k := e.1) (v := e.2) hd)
    show (added (insertEntry e.1 e.2 d) m).length ≤ _ ∧ ((added (insertEntry e.1 e.2 d) m).length = _ → _)
    by_cases hm : e.1 ∈ d.map (·.1)
    · rw [if_pos hm] at hl
      simp only [List.length_map] at hl
      rw [hl] at h1
      simp only [List.length_cons]
      exact ⟨by omega, fun h => by omega⟩
    · rw [insertEntry_new hm] at h1 h2 ⊢
      simp only [List.length_append, List.length_cons, List.length_nil] at h1 h2 ⊢
      refine ⟨by omega, fun h => ?_⟩
      have := h2 (by omega)
      simpa using this

theorem added_nodup {d m : Dict L} (hd : (d.map (·.1)).Nodup) : ((added d m).map (·.1)).Nodup := by
  induction m generalizing d with
  | nil => exact hd
  | cons e m ih => exact ih (insertEntry_nodup hd)

theorem added_mem {d m : Dict L} {e : Str × PVal L} (h : e ∈ added d m) : e ∈ d ∨ e ∈ m := by
  induction m generalizing d with
  | nil => exact Or.inl h
  | cons e' m ih =>
    rcases ih h with h | h
    · rcases insertEntry_mem h with rfl | h
      · exact Or.inr (by simp)
      · exact Or.inl h
    · exact Or.inr (List.mem_cons_of_mem _ h)

theorem gather_new {m : Dict L} (h : (m.map (·.1)).Nodup) : gather m = m := added_new (d := []) (by simpa using h)

theorem gather_nodup (m : Dict L) : ((gather m).map (·.1)).Nodup := added_nodup (d := []) (by simp)

theorem gather_mem {m : Dict L} {e : Str × PVal L} (h : e ∈ gather m) : e ∈ m := (added_mem h).elim (fun h => (nomatch h)) id

theorem gather_length {m : Dict L} (h : (gather m).length = m.length) : (m.map (·.1)).Nodup := by
  have := (added_length (d := ([] : Dict L)) (m := m) (by simp)).2 (by simpa [gather] using h)
  simpa using this

/-! ## What is read back -/

mutual
/-- The value that the reader makes of what the printer made of a value. -/
def hear : PVal L → PVal L
  | .str s => .str (heardText s)
  | .int i => .int i
  | .real x => .real x
  | .bool b => .bool b
  | .leaf x => .leaf x
  | .array l => .array (hears l)
  | .dict l => .dict (gather (hearEntries l))

def hears : List (PVal L) → List (PVal L)
  | [] => []
  | v :: l => hear v :: hears l

def hearEntries : Dict L → Dict L
  | [] => []
  | (k, v) :: l => (heardText k, hear v) :: hearEntries l
end

theorem hears_eq (l : List (PVal L)) : hears l = l.map hear := by
  induction l with
  | nil => simp [hears]
  | cons v l ih => simp [hears, ih]

theorem hearEntries_eq (l : Dict L) : hearEntries l = l.map fun e => (heardText e.1, hear e.2) := by
  induction l with
  | nil => simp [hearEntries]
  | cons v l ih => obtain ⟨k, v⟩ := v; simp [hearEntries, ih]

theorem heardVals_eq (l : List (PVal L)) : heardVals l = l.map heardVal := by
  induction l with
  | nil => simp [heardVals]
  | cons v l ih => simp [heardVals, ih]

theorem heardDict_eq (l : Dict L) : heardDict l = l.map fun e => (heardText e.1, heardVal e.2) := by
  induction l with
  | nil => simp [heardDict]
  | cons v l ih => obtain ⟨k, v⟩ := v; simp [heardDict, ih]

theorem heardText_idem (s : Str) : heardText (heardText s) = heardText s := by
  unfold heardText
  by_cases h : Blank s
  · rw [if_pos h, if_pos (by intro c hc; simp at hc)]
  · rw [if_neg h, if_neg h]

theorem heardText_eq_iff (s : Str) : heardText s = s ↔ (Blank s → s = []) := by
  unfold heardText
  split
  · next h => exact ⟨fun he _ => he.symm, fun h' => (h' h).symm⟩
  · next h => exact ⟨fun _ h' => absurd h' h, fun _ => rfl⟩

theorem heardText_plain {s : Str} (h : PlainText s) : PlainText (heardText s) := by
  unfold heardText
  split
  · intro c hc; simp at hc
  · exact h

theorem hear_distinct {v : PVal L} (h : Distinct v) : hear v = heardVal v := by
  induction h with
  | str | int | real | bool | leaf => simp [hear, heardVal]
  | array l h ih => simp only [hear, heardVal, hears_eq, heardVals_eq]; rw [List.map_congr_left ih]
  | dict l hn h ih =>
    simp only [hear, heardVal]
    have : hearEntries l = heardDict l := by
      rw [hearEntries_eq, heardDict_eq]
      exact List.map_congr_left fun e he => by rw [ih e he]
    rw [this, gather_new]
    rw [heardDict_eq, List.map_map]; exact hn

theorem hear_audible {v : PVal L} (hp : Printable v) (h : Audible v) : hear v = v := by
  induction h with
  | str s h => simp [hear, (heardText_eq_iff s).2 h]
  | int | real | bool | leaf => simp [hear]
  | array l h ih =>
    cases hp with
    | array _ hp => simp only [hear, hears_eq]; rw [List.map_congr_left (g := id) (fun v hv => ih v hv (hp v hv)), List.map_id]
  | dict l hk h ih =>
    cases hp with
    | dict _ hn _ hp =>
      have : hearEntries l = l := by
        rw [hearEntries_eq]
        conv_rhs => rw [← List.map_id l]
        exact List.map_congr_left fun e he => by rw [ih e he (hp e he), (heardText_eq_iff _).2 (hk e he)]; rfl
      simp only [hear, this]
      rw [gather_new hn]

theorem audible_hear {v : PVal L} (hp : Printable v) (h : hear v = v) : Audible v := by
  induction hp with
  | str s hs => exact .str s ((heardText_eq_iff s).1 (by simpa [hear] using h))
  | int | real | bool | leaf => constructor
  | array l hp ih =>
    refine .array l fun v hv => ih v hv ?_
    simp only [hear, hears_eq, PVal.array.injEq] at h
    exact List.map_inj_left.1 (h.trans (List.map_id l).symm) v hv
  | dict l hn hk hp ih =>
    simp only [hear, PVal.dict.injEq] at h
    have hl : (gather (hearEntries l)).length = (hearEntries l).length := by rw [h, hearEntries_eq, List.length_map]
    rw [gather_new (gather_length hl), hearEntries_eq] at h
    have h' := List.map_inj_left.1 (h.trans (List.map_id l).symm)
    refine .dict l (fun e he => (heardText_eq_iff _).1 ?_) fun e he => ih e he ?_
    · exact congrArg Prod.fst (h' e he)
    · exact congrArg Prod.snd (h' e he)

theorem hear_settled {v : PVal L} (hp : Printable v) : Printable (hear v) ∧ Audible (hear v) := by
  induction hp with
  | str s hs =>
    simp only [hear]
    exact ⟨.str _ (heardText_plain hs), .str _ ((heardText_eq_iff _).1 (heardText_idem s))⟩
  | int i h h' => simp only [hear]; exact ⟨.int i h h', .int i⟩
  | real x => simp only [hear]; exact ⟨.real x, .real x⟩
  | bool x => simp only [hear]; exact ⟨.bool x, .bool x⟩
  | leaf x => simp only [hear]; exact ⟨.leaf x, .leaf x⟩
  | array l hp ih =>
    simp only [hear, hears_eq]
    refine ⟨.array _ fun v hv => ?_, .array _ fun v hv => ?_⟩ <;> obtain ⟨w, hw, rfl⟩ := List.mem_map.1 hv
    · exact (ih w hw).1
    · exact (ih w hw).2
  | dict l hn hk hp ih =>
    have key : ∀ e ∈ gather (hearEntries l), ∃ w ∈ l, e = (heardText w.1, hear w.2) := fun e he => by
      have := gather_mem he
      rw [hearEntries_eq] at this
      obtain ⟨w, hw, rfl⟩ := List.mem_map.1 this
      exact ⟨w, hw, rfl⟩
    simp only [hear]
    refine ⟨.dict _ (gather_nodup _) (fun e he => ?_) fun e he => ?_, .dict _ (fun e he => ?_) fun e he => ?_⟩ <;>
      obtain ⟨w, hw, rfl⟩ := key e he
    · exact heardText_plain (hk w hw)
    · exact (ih w hw).1
    · exact (heardText_eq_iff _).1 (heardText_idem _)
    · exact (ih w hw).2

/-! ## The tree as heard -/

/-- An element with a text in it, as heard. -/
def heardElem (n : String) (s : Str) : Node := .elem n [] (if Blank s then [] else [.text s])

mutual
/-- The tree of a value as an XML reader hears it. -/
def heardTree (lio : LeafIO L) : PVal L → Node
  | .str s => heardElem "string" s
  | .int i => heardElem "integer" (showInt i)
  | .real x => heardElem "real" (showFloat x)
  | .bool true => .elem "true" [] []
  | .bool false => .elem "false" [] []
  | .leaf x => heardElem (lio.tag x) (lio.print x)
  | .array l => .elem "array" [] (heardTrees lio l)
  | .dict l => .elem "dict" [] (heardEntryTrees lio l)

def heardTrees (lio : LeafIO L) : List (PVal L) → List Node
  | [] => []
  | v :: l => heardTree lio v :: heardTrees lio l

def heardEntryTrees (lio : LeafIO L) : List (Str × PVal L) → List Node
  | [] => []
  | (k, v) :: l => heardElem "key" k :: heardTree lio v :: heardEntryTrees lio l
end

theorem trees_pairs (lio : LeafIO L) (l : List (PVal L)) :
    trees lio l = (l.map fun v => (tree lio v, heardTree lio v)).map (·.1) ∧
    heardTrees lio l = (l.map fun v => (tree lio v, heardTree lio v)).map (·.2) := by
  induction l with
  | nil => simp [trees, heardTrees]
  | cons v l ih => simp only [trees, heardTrees, List.map_cons]; rw [ih.1, ih.2]; exact ⟨rfl, rfl⟩

/-- Keys and values, as printed and as heard. -/
def entryPairs (lio : LeafIO L) (l : Dict L) : List (Node × Node) :=
  l.flatMap fun e => [(textElem "key" e.1, heardElem "key" e.1), (tree lio e.2, heardTree lio e.2)]

theorem entries_pairs (lio : LeafIO L) (l : Dict L) :
    entryTrees lio l = (entryPairs lio l).map (·.1) ∧ heardEntryTrees lio l = (entryPairs lio l).map (·.2) := by
  induction l with
  | nil => simp [entryTrees, heardEntryTrees, entryPairs]
  | cons e l ih =>
    obtain ⟨k, v⟩ := e
    simp only [entryTrees, heardEntryTrees, ih.1, ih.2, entryPairs, List.flatMap_cons, List.map_append]
    exact ⟨rfl, rfl⟩

theorem tree_elem (lio : LeafIO L) (v : PVal L) : ∃ n as cs, tree lio v = .elem n as cs := by
  cases v with
  | bool b => cases b <;> exact ⟨_, _, _, by simp only [tree]; rfl⟩
  | _ => exact ⟨_, _, _, by simp only [tree, textElem]; rfl⟩

theorem heardTree_elem (lio : LeafIO L) (v : PVal L) : ∃ n as cs, heardTree lio v = .elem n as cs := by
  cases v with
  | bool b => cases b <;> exact ⟨_, _, _, by simp only [heardTree]; rfl⟩
  | _ => exact ⟨_, _, _, by simp only [heardTree, heardElem]; rfl⟩

theorem heard_text (n : String) (s : Str) (hn : XmlName n) (hs : PlainText s) :
    Heard (textElem n s) (heardElem n s) ∧ Sayable (heardElem n s) := by
  unfold textElem heardElem
  by_cases h : Blank s
  · rw [if_pos h]
    exact ⟨.blank n [] s hn ⟨by simp, by simp⟩ hs h, .elem n [] [] hn ⟨by simp, by simp⟩ (by simp) (by intro i; simp)⟩
  · rw [if_neg h]
    have : Sayable (.elem n [] [.text s]) :=
      .elem n [] _ hn ⟨by simp, by simp⟩ (fun c hc => by rw [List.mem_singleton.1 hc]; exact .text s hs h) (by intro i; simp)
    exact ⟨.same _ this, this⟩

/-! ## Texts of numbers -/

/-- Visible characters of ASCII. -/
def Inked (s : Str) : Prop := ∀ c ∈ s, 0x21 ≤ c.toNat ∧ c.toNat < 0x7F

theorem inked_append {s t : Str} (hs : Inked s) (ht : Inked t) : Inked (s ++ t) := fun c hc =>
  (List.mem_append.1 hc).elim (hs c) (ht c)

theorem inked_cons {c : Char} {s : Str} (hc : 0x21 ≤ c.toNat ∧ c.toNat < 0x7F) (hs : Inked s) : Inked (c :: s) :=
  inked_append (s := [c]) (fun d hd => by rw [List.mem_singleton.1 hd]; exact hc) hs

theorem inked_digits (n : Nat) : Inked (toDigits 10 n) := by
  intro c hc
  obtain ⟨d, hd, rfl⟩ := toDigits_chars (by decide) (by decide) n c hc
  have key : ∀ d < 10, 0x21 ≤ (digitChar d).toNat ∧ (digitChar d).toNat < 0x7F := by decide
  exact key d hd

theorem inked_int (i : Int) : Inked (showInt i) := by
  unfold showInt
  split
  · exact inked_cons (by decide) (inked_digits _)
  · exact inked_digits _

theorem inked_mag (f : Fmt) (k : Nat) : Inked (showMag f k) := by
  unfold showMag
  split
  · unfold Inked; decide
  · split
    · unfold Inked; decide
    · show Inked (showDec _ _ _)
      unfold showDec
      split
      · exact inked_digits _
      · refine inked_append (inked_digits _) (inked_cons (by decide) (inked_append ?_ (inked_digits _)))
        exact fun c hc => by rw [(List.mem_replicate.1 hc).2]; decide

theorem inked_float {f : Fmt} (x : Flt f) : Inked (showFloat x) := by
  cases x with
  | nan => unfold Inked; simp only [showFloat]; decide
  | num s k h =>
    unfold showFloat
    cases s
    · exact inked_mag _ _
    · exact inked_cons (by decide) (inked_mag _ _)

theorem inked_plain {s : Str} (h : Inked s) : PlainText s := fun c hc => by
  have := h c hc
  refine ⟨Or.inr (Or.inr (Or.inr ⟨by omega, by omega, by omega⟩)), ?_⟩
  rintro rfl
  exact absurd this.1 (by decide)

theorem inked_heard {s : Str} (h : Inked s) : heardText s = s := by
  rw [heardText_eq_iff]
  intro hb
  cases s with
  | nil => rfl
  | cons c s =>
    have h1 := (h c (by simp)).1
    rcases hb c (by simp) with rfl | rfl | rfl | rfl <;> exact absurd h1 (by decide)

theorem readInt_showInt (i : Int) (h : -(2 ^ 63) ≤ i) (h' : i < 2 ^ 64) : readInt (showInt i) = some i := by
  unfold showInt
  split
  · next hi =>
    simp only [readInt]
    rw [parseNat_toDigits (by decide) (by decide)]
    simp only
    rw [if_pos (by omega)]
    congr 1; omega
  · next hi =>
    have hp := parseUnsigned_toDigits (b := 10) (bound := 2 ^ 64) (n := i.natAbs) (by decide) (by decide) (by omega)
    unfold readInt
    split
    · next r hr =>
      obtain ⟨d, hd, he⟩ := toDigits_chars (b := 10) (by decide) (by decide) i.natAbs '-' (by rw [hr]; simp)
      have key : ∀ d < 10, '-' ≠ digitChar d := by decide
      exact absurd he (key d hd)
    · rw [hp]
      simp only [Option.map_some, Int.ofNat_eq_natCast, Option.some.injEq]
      omega

/-! ## Printing and reading -/

theorem name_of_tag {lio : LeafIO L} (hl : LeafLaws lio) (x : L) : XmlName (lio.tag x) := by
  rcases hl.tag x with h | h <;> rw [h] <;> decide

theorem heard_elems (n : String) (hn : XmlName n) (ps : List (Node × Node)) (h : ∀ p ∈ ps, Heard p.1 p.2 ∧ Sayable p.2)
    (he : ∀ p ∈ ps, (∀ s, p.1 ≠ .text s) ∧ ∀ s, p.2 ≠ .text s) :
    Heard (.elem n [] (ps.map (·.1))) (.elem n [] (ps.map (·.2))) ∧ Sayable (.elem n [] (ps.map (·.2))) := by
  refine ⟨.elem n [] ps hn ⟨by simp, by simp⟩ (fun p hp => (h p hp).1) (apart_nodes _ fun c hc => ?_),
    .elem n [] _ hn ⟨by simp, by simp⟩ (fun c hc => ?_) (apart_nodes _ fun c hc => ?_)⟩ <;>
    obtain ⟨p, hp, rfl⟩ := List.mem_map.1 hc
  · exact (he p hp).1
  · exact (h p hp).2
  · exact (he p hp).2

theorem tree_not_text (lio : LeafIO L) (v : PVal L) : (∀ s, tree lio v ≠ .text s) ∧ ∀ s, heardTree lio v ≠ .text s := by
  obtain ⟨n, as, cs, h⟩ := tree_elem lio v
  obtain ⟨n', as', cs', h'⟩ := heardTree_elem lio v
  rw [h, h']
  exact ⟨fun s => nofun, fun s => nofun⟩

/-- A value that a file can hold, but for keys that may be there twice. -/
inductive PlainVal : PVal L → Prop
  | str (s) (h : PlainText s) : PlainVal (.str s)
  | int (i) (h : -(2 ^ 63) ≤ i) (h' : i < 2 ^ 64) : PlainVal (.int i)
  | real (x) : PlainVal (.real x)
  | bool (b) : PlainVal (.bool b)
  | leaf (x) : PlainVal (.leaf x)
  | array (l) (h : ∀ v ∈ l, PlainVal v) : PlainVal (.array l)
  | dict (l) (hk : ∀ e ∈ l, PlainText e.1) (h : ∀ e ∈ l, PlainVal e.2) : PlainVal (.dict l)

theorem printable_plain {v : PVal L} (h : Printable v) : PlainVal v := by
  induction h with
  | str s h => exact .str s h
  | int i h h' => exact .int i h h'
  | real x => exact .real x
  | bool b => exact .bool b
  | leaf x => exact .leaf x
  | array l _ ih => exact .array l ih
  | dict l _ hk _ ih => exact .dict l hk ih

theorem heard_tree {lio : LeafIO L} (hl : LeafLaws lio) {v : PVal L} (h : PlainVal v) :
    Heard (tree lio v) (heardTree lio v) ∧ Sayable (heardTree lio v) := by
  induction h with
  | str s h => simp only [tree, heardTree]; exact heard_text _ _ (by decide) h
  | int i h h' => simp only [tree, heardTree]; exact heard_text _ _ (by decide) (inked_plain (inked_int i))
  | real x => simp only [tree, heardTree]; exact heard_text _ _ (by decide) (inked_plain (inked_float x))
  | bool b =>
    have key : ∀ n, XmlName n → Sayable (.elem n [] []) := fun n hn =>
      .elem n [] [] hn ⟨by simp, by simp⟩ (by simp) (by intro i; simp)
    cases b <;> simp only [tree, heardTree] <;> exact ⟨.same _ (key _ (by decide)), key _ (by decide)⟩
  | leaf x => simp only [tree, heardTree]; exact heard_text _ _ (name_of_tag hl x) (hl.plain x)
  | array l h ih =>
    simp only [tree, heardTree]
    rw [(trees_pairs lio l).1, (trees_pairs lio l).2]
    refine heard_elems _ (by decide) _ (fun p hp => ?_) fun p hp => ?_ <;> obtain ⟨v, hv, rfl⟩ := List.mem_map.1 hp
    · exact ih v hv
    · exact tree_not_text lio v
  | dict l hk h ih =>
    simp only [tree, heardTree]
    rw [(entries_pairs lio l).1, (entries_pairs lio l).2]
    refine heard_elems _ (by decide) _ (fun p hp => ?_) fun p hp => ?_ <;>
      obtain ⟨e, he, hp⟩ := List.mem_flatMap.1 hp <;> rcases List.mem_cons.1 hp with rfl | hp
    · exact heard_text _ _ (by decide) (hk e he)
    · rw [List.mem_singleton.1 hp]; exact ih e he
    · exact ⟨fun s => nofun, fun s => nofun⟩
    · rw [List.mem_singleton.1 hp]; exact tree_not_text lio e.2

theorem chars_heard (s : Str) : chars (if Blank s then [] else [.text s]) = some (heardText s) := by
  unfold heardText
  split <;> simp [chars]

theorem heardTree_kept (lio : LeafIO L) (v : PVal L) : ignored (heardTree lio v) = false := by
  obtain ⟨n, as, cs, h⟩ := heardTree_elem lio v
  rw [h]; rfl

theorem value_heard {lio : LeafIO L} (hl : LeafLaws lio) {v : PVal L} (h : PlainVal v) :
    value lio (heardTree lio v) = some (hear v) := by
  induction h with
  | str s h =>
    simp only [heardTree, heardElem, value, hear]
    rw [if_pos trivial, chars_heard]; rfl
  | int i h h' =>
    simp only [heardTree, heardElem, value, hear]
    rw [if_neg (by decide), if_pos trivial, chars_heard, inked_heard (inked_int i), Option.bind_some, readInt_showInt i h h']; rfl
  | real x =>
    simp only [heardTree, heardElem, value, hear]
    rw [if_neg (by decide), if_neg (by decide), if_pos trivial, chars_heard, inked_heard (inked_float x), Option.bind_some,
      parseFloat_showFloat (by decide) x]; rfl
  | bool b => cases b <;> simp [heardTree, value, hear]
  | leaf x =>
    simp only [heardTree, heardElem, value, hear]
    have key : ∀ n, n = "date" ∨ n = "data" → n ≠ "string" ∧ n ≠ "integer" ∧ n ≠ "real" ∧ n ≠ "true" ∧ n ≠ "false" ∧ n ≠ "array" ∧ n ≠ "dict" := by
      rintro n (rfl | rfl) <;> decide
    obtain ⟨h1, h2, h3, h4, h5, h6, h7⟩ := key _ (hl.tag x)
    rw [if_neg h1, if_neg h2, if_neg h3, if_neg h4, if_neg h5, if_neg h6, if_neg h7, if_pos (hl.tag x), chars_heard,
      Option.bind_some, hl.parse]; rfl
  | array l h ih =>
    have key : values lio (heardTrees lio l) = some (hears l) := by
      clear h
      induction l with
      | nil => simp [heardTrees, values, hears]
      | cons v l ihl =>
        simp only [heardTrees, values, hears, heardTree_kept, ih v (by simp), ihl fun w hw => ih w (by simp [hw])]
        rfl
    simp only [heardTree, value, hear, key]
    rfl
  | dict l hk h ih =>
    have key : entries lio none (heardEntryTrees lio l) = some (hearEntries l) := by
      clear h hk
      induction l with
      | nil => simp [heardEntryTrees, entries, hearEntries]
      | cons e l ihl =>
        obtain ⟨k, v⟩ := e
        have hkey : keyOf (heardElem "key" k) = some (heardText k) := by
          simp only [keyOf, heardElem]; rw [if_pos trivial, chars_heard]
        have hign : ignored (heardElem "key" k) = false := rfl
        simp only [heardEntryTrees, entries, hearEntries, heardTree_kept, hign, hkey, ih (k, v) (by simp),
          ihl fun w hw => ih w (by simp [hw])]
        rfl
    simp only [heardTree, value, hear, key]
    rfl

theorem lays_plain : Lays plain := fun _ _ => ⟨by simp [plain], fun _ _ => ⟨rfl, rfl⟩⟩

/-- What the printed list is heard as. -/
theorem toXml_eq {lio : LeafIO L} (hl : LeafLaws lio) (lay : XmlText.Layout) (hy : Lays lay) (d : Dict L) (h : PlainVal (.dict d)) :
    (io lio lay).toXml d = some { name := "plist", attrs := [("version", "1.0".toList)], children := [heardTree lio (.dict d)] } := by
  show XmlText.parse (XmlText.print lay (document lio d)) = _
  rw [XmlText.parse_print lay hy (document lio d) [(tree lio (.dict d), heardTree lio (.dict d))] rfl (show XmlName "plist" by decide)
    ⟨by simp [document], ?_⟩ ?_ ?_]
  · rfl
  · intro a ha
    rw [List.mem_singleton.1 ha]
    exact ⟨by decide, attr_ascii (by decide)⟩
  · intro p hp
    rw [List.mem_singleton.1 hp]
    exact (heard_tree hl h).1
  · exact apart_nodes _ fun c hc => by rw [List.mem_singleton.1 hc]; exact (tree_not_text lio _).1

theorem fromXml_eq {lio : LeafIO L} (hl : LeafLaws lio) (lay : XmlText.Layout) (d : Dict L) (h : PlainVal (.dict d)) :
    (io lio lay).fromXml { name := "plist", attrs := [], children := [heardTree lio (.dict d)] } = some (some (gather (hearEntries d))) := by
  show some (Option.bind (XmlText.parse (XmlText.print plain _)) (ofDocument lio)) = _
  rw [C97_document plain lays_plain { name := "plist", attrs := [], children := [heardTree lio (.dict d)] } (.elem "plist" [] _ (by decide) ⟨by simp, by simp⟩
    (fun c hc => by rw [List.mem_singleton.1 hc]; exact (heard_tree hl h).2)
    (apart_nodes _ fun c hc => by rw [List.mem_singleton.1 hc]; exact (tree_not_text lio _).2))]
  have hv := value_heard hl h
  simp only [Option.bind_some, ofDocument, values, heardTree_kept, hv]
  simp only [hear]
  rfl

end GP.Plist
