import Verif.Props.Strings
/-!
# C18: exactly which names share their file name with another one, if case is ignored
-/
namespace GP
open Spec

theorem caseUnique_tail {c : Char} {n : Str} (h : CaseUnique (c :: n)) : CaseUnique n :=
  ⟨fun d hd => h.1 d (List.mem_cons_of_mem _ hd), fun i d h1 h2 => h.2 (i + 1) d h1 h2⟩

theorem caseUnique_enc : ∀ (a : Str), CaseUnique a → (a.flatMap enc).map lower = a := by
  intro a
  induction a with
  | nil => intro _; rfl
  | cons c a ih =>
    intro h
    have hc := (h.1 c (List.mem_cons_self ..)).1
    have hu : ¬ underscored c = true := by rw [underscored_iff]; omega
    have hl : lower c = c := by unfold lower; rw [if_neg hc]
    rw [List.flatMap_cons, List.map_append, ih (caseUnique_tail h)]
    unfold enc
    rw [if_neg hu]
    simp [hl]

theorem caseUnique_only : ∀ (b a : Str), CaseUnique a → (b.flatMap enc).map lower = a → b = a := by
  intro b
  induction b with
  | nil => intro a _ h; exact h
  | cons d b ih =>
    intro a ha h
    rw [List.flatMap_cons, List.map_append] at h
    unfold enc at h
    by_cases hu : underscored d = true
    · rw [if_pos hu] at h
      have hl : lower '_' = '_' := by decide
      simp only [List.map_cons, List.map_nil, hl, List.cons_append, List.nil_append] at h
      subst h
      have h2 := ha.2 0 (lower d) rfl rfl
      rw [underscored_iff] at hu
      rw [lower_toNat, if_pos (by omega)] at h2
      omega
    · rw [if_neg hu] at h
      simp only [List.map_cons, List.map_nil, List.cons_append, List.nil_append] at h
      cases a with
      | nil => cases h
      | cons e a =>
        rw [List.cons.injEq] at h
        obtain ⟨h1, h2⟩ := h
        rw [ih a (caseUnique_tail ha) h2]
        congr 1
        have he := ha.1 e (List.mem_cons_self ..)
        rw [underscored_iff] at hu
        have e1 := congrArg Char.toNat h1
        rw [lower_toNat] at e1
        by_cases hd : 65 ≤ d.toNat ∧ d.toNat ≤ 90
        · rw [if_pos hd] at e1
          exact absurd (char_eq (a := e) (b := 'z') (by rw [← e1]; show d.toNat + 32 = 122; omega)) he.2
        · rw [if_neg hd] at e1
          exact char_eq e1

theorem collide_at (s t x y : Str) (h : (x.flatMap enc).map lower = (y.flatMap enc).map lower) (ext : Bool) :
    SameIgnoringCase (nameToFilename (s ++ x ++ t) ext) (nameToFilename (s ++ y ++ t) ext) := by
  unfold SameIgnoringCase
  simp only [nameToFilename_eq, List.flatMap_append, List.map_append, h]

/-- **C18**, exactly: the file name of a name differs from that of every other name, even if ASCII case is
ignored, if and only if the name has no capital letter and no `z`, and no letter `a` to `y` directly before
an underscore.  (With `C18_partial`: among names without `Z` and without such a letter before an underscore
there are no collisions.) -/
theorem C18_exact (ext : Bool) (a : Str) :
    (∀ b, b ≠ a → ¬ SameIgnoringCase (nameToFilename a ext) (nameToFilename b ext)) ↔ CaseUnique a := by
  constructor
  · intro h
    have no : ∀ (s t x y : Str), a = s ++ x ++ t → x ≠ y → (x.flatMap enc).map lower = (y.flatMap enc).map lower → False := by
      intro s t x y ha hxy he
      refine h (s ++ y ++ t) ?_ (ha ▸ collide_at s t x y he ext)
      intro e
      rw [ha] at e
      exact hxy (List.append_cancel_left (List.append_cancel_right e)).symm
    refine ⟨fun c hc => ?_, fun i c h1 h2 hr => ?_⟩
    · obtain ⟨s, t, hst⟩ := List.append_of_mem hc
      have hst' : a = s ++ [c] ++ t := by simp [hst]
      constructor
      · intro hr
        by_cases hz : c = 'Z'
        · subst hz
          exact no s t ['Z'] ['z'] hst' (by decide) (by decide)
        · have hc90 : c.toNat ≠ 90 := fun e => hz (char_eq (b := 'Z') e)
          have hu : underscored c = true := by rw [underscored_iff]; omega
          have hl : (lower c).toNat = c.toNat + 32 := by rw [lower_toNat, if_pos hr]
          have hul : ¬ underscored (lower c) = true := by rw [underscored_iff, hl]; omega
          have hll : lower (lower c) = lower c := by unfold lower; rw [if_pos hr, if_neg]; rw [toNat_ofNat (by omega)]; omega
          have hus : ¬ underscored '_' = true := by decide
          refine no s t [c] [lower c, '_'] hst' (by simp) ?_
          simp [enc, hu, hul, hus, hll]
      · rintro rfl
        exact no s t ['z'] ['Z'] hst' (by decide) (by decide)
    · have hlt : i + 1 < a.length := (List.getElem?_eq_some_iff.1 h2).1
      have hst : a = a.take i ++ [c, '_'] ++ a.drop (i + 2) := by
        have e1 : a.drop i = c :: a.drop (i + 1) := by
          rw [List.drop_eq_getElem_cons (by omega)]
          rw [(List.getElem?_eq_some_iff.1 h1).2]
        have e2 : a.drop (i + 1) = '_' :: a.drop (i + 2) := by
          rw [List.drop_eq_getElem_cons hlt]
          rw [(List.getElem?_eq_some_iff.1 h2).2]
        rw [List.append_assoc]
        show a = a.take i ++ (c :: '_' :: a.drop (i + 2))
        rw [← e2, ← e1, List.take_append_drop]
      have hu : (Char.ofNat (c.toNat - 32)).toNat = c.toNat - 32 := toNat_ofNat (by omega)
      have h1' : underscored (Char.ofNat (c.toNat - 32)) = true := by rw [underscored_iff, hu]; omega
      have h2' : ¬ underscored c = true := by rw [underscored_iff]; omega
      have hus : ¬ underscored '_' = true := by decide
      have hl : lower (Char.ofNat (c.toNat - 32)) = lower c := by
        apply char_eq
        rw [lower_toNat, lower_toNat, hu, if_pos (by omega), if_neg (by omega)]
        omega
      refine no _ _ [c, '_'] [Char.ofNat (c.toNat - 32)] hst (by simp) ?_
      simp [enc, h1', h2', hus, hl]
  · intro ha b hb hs
    unfold SameIgnoringCase at hs
    rw [nameToFilename_eq, nameToFilename_eq, List.map_append, List.map_append] at hs
    have := List.append_cancel_right hs
    rw [caseUnique_enc a ha] at this
    exact hb (caseUnique_only b a ha this.symm)

/-- `a.alt` meets the condition, `A` does not. -/
example : CaseUnique "a.alt".toList ∧ ¬ CaseUnique "A".toList := by
  refine ⟨⟨by decide, ?_⟩, fun h => absurd (h.1 'A' (by decide)).1 (by decide)⟩
  intro i c h1 h2
  match i with
  | 0 => simp at h2
  | 1 => simp at h2
  | 2 => simp at h2
  | 3 => simp at h2
  | 4 => simp at h2
  | i + 5 => simp at h1

end GP
