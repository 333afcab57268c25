import Verif.Props.Reverse
import Verif.Props.FileContours
/-!
# Reversing whole outlines (C123)
-/
open Fl
namespace GP
variable {PD D : Type}
open Spec

/-- The contours of `o'` are those of `o`, in order, each reversed on its own. -/
def Spec.EachReversed (o o' : Outline PD) : Prop := List.Forall₂ (fun c d => toReversed c = .ok d) o o'

/-- The last point's type is what its handles say, if the contour is open and has more than one point. -/
def Spec.EndsByHandles (c : Contour PD) : Prop :=
  ∀ p mid z, c = p :: mid ++ [z] → p.ptype = .move → z.ptype = typeByHandles ((p :: mid).getLast (by simp)).a z.b

/-- The points whose types a reversal keeps, but for the first one's: not the last one of an open contour. -/
def Spec.typesKept (c : Contour PD) : Contour PD :=
  match c with
  | p :: q :: r => if p.ptype = .move then (p :: q :: r).dropLast else c
  | _ => c

theorem mapM'_ok_iff {α β : Type} {f : α → R β} (l : List α) (r : List β) :
    Out.mapM' f l = .ok r ↔ List.Forall₂ (fun a b => f a = .ok b) l r := by
  constructor
  · exact mapM'_forall₂
  · intro h
    induction h with
    | nil => rfl
    | cons h _ ih => simp [Out.mapM', h, ih, Out.bind_ok]

/-- **C123.** An outline is reversed contour by contour; it can be reversed exactly if no contour is empty. -/
theorem C123_contours (o : Outline PD) :
    (∀ o', outlineToReversed o = .ok o' ↔ EachReversed o o') ∧ (outlineToReversed o = .panic ↔ [] ∈ o) ∧
      ∀ e, outlineToReversed o ≠ .err e := by
  refine ⟨fun o' => mapM'_ok_iff o o', ?_⟩
  unfold outlineToReversed
  induction o with
  | nil => exact ⟨⟨nofun, nofun⟩, nofun⟩
  | cons c o ih =>
    obtain ⟨h1, h2⟩ := C27_panics_iff c
    cases hc : toReversed c with
    | err e => exact absurd hc (h2 e)
    | panic =>
      have := h1.1 hc
      subst this
      simp [Out.mapM', hc]
    | ok c' =>
      have hne : c ≠ [] := fun e => by rw [h1.2 e] at hc; cases hc
      cases ho : Out.mapM' toReversed o with
      | ok o' =>
        rw [ho] at ih
        simp only [Out.mapM', hc, ho, Out.bind_ok, List.mem_cons]
        refine ⟨⟨nofun, ?_⟩, nofun⟩
        rintro (e | e)
        · exact absurd e.symm hne
        · exact absurd (ih.1.2 e) nofun
      | err e => exact absurd ho (ih.2 e)
      | panic =>
        simp only [Out.mapM', hc, ho, Out.bind_ok, List.mem_cons]
        exact ⟨⟨fun _ => Or.inr (ih.1.1 ho), fun _ => rfl⟩, nofun⟩


/-- The shapes of contours that reversal tells apart. -/
theorem contour_shape (c : Contour PD) : c = [] ∨ (∃ p rest, c = p :: rest ∧ (p.ptype ≠ .move ∨ rest = [])) ∨
    ∃ p mid z, c = p :: mid ++ [z] ∧ p.ptype = .move := by
  cases c with
  | nil => exact Or.inl rfl
  | cons p rest =>
    by_cases h : p.ptype = .move
    · rcases List.eq_nil_or_concat rest with rfl | ⟨mid, z, rfl⟩
      · exact Or.inr (Or.inl ⟨p, [], rfl, Or.inr rfl⟩)
      · exact Or.inr (Or.inr ⟨p, mid, z, by simp, h⟩)
    · exact Or.inr (Or.inl ⟨p, rest, rfl, Or.inl h⟩)

theorem typeByHandles_writable (a b : Handle) : typeByHandles a b = .curve ∨ typeByHandles a b = .line := by
  unfold typeByHandles
  split
  · exact Or.inr rfl
  · exact Or.inl rfl

theorem reversal_writable {c d : Contour PD} (h : toReversed c = .ok d) :
    intoGlifpoints d = .panic ↔
      (∀ p ∈ c, p.ptype = .offcurve) ∨ ∃ p ∈ typesKept c, p.ptype = .undefined ∨ p.ptype = .qclose := by
  rw [C05_panics_iff]
  rcases contour_shape c with rfl | ⟨p, rest, rfl, hs⟩ | ⟨p, mid, z, rfl, hm⟩
  · cases h
  · rw [toReversed_closed hs] at h
    cases h
    have hk : typesKept (p :: rest) = p :: rest := by
      unfold typesKept
      split
      · rename_i q r e
        cases e
        rcases hs with hs | hs
        · rw [if_neg hs]
        · cases hs
      · rfl
    rw [hk]
    simp [swapped]
  · rw [toReversed_open hm] at h
    cases h
    have hk : typesKept (p :: mid ++ [z]) = p :: mid := by
      unfold typesKept
      cases mid with
      | nil => simp [hm]
      | cons q r =>
        show (if p.ptype = .move then (p :: q :: r ++ [z]).dropLast else _) = _
        rw [if_pos hm, List.dropLast_concat]
    rw [hk]
    have ht := typeByHandles_writable ((mid ++ [z]).head (by simp)).b p.a
    constructor
    · rintro (h | ⟨q, hq, hu⟩)
      · exact absurd (h _ (List.mem_cons_self)) (by simp)
      · right
        simp only [List.cons_append, List.mem_cons, List.mem_append, List.mem_map, List.mem_reverse, List.not_mem_nil, or_false] at hq
        rcases hq with rfl | ⟨q, hq, rfl⟩ | rfl
        · simp at hu
        · exact ⟨q, List.mem_cons_of_mem _ hq, hu⟩
        · simp only at hu
          rcases ht with ht | ht <;> rw [ht] at hu <;> simp at hu
    · rintro (h | ⟨q, hq, hu⟩)
      · exact absurd (h p List.mem_cons_self) (by simp [hm])
      · rcases List.mem_cons.1 hq with rfl | hq
        · rw [hm] at hu; simp at hu
        · exact Or.inr ⟨swapped q, by simp only [List.cons_append, List.mem_cons, List.mem_append, List.mem_map, List.mem_reverse]; exact Or.inr (Or.inl ⟨q, hq, rfl⟩), hu⟩

theorem forall₂_panics {o o' : Outline PD} (h : EachReversed o o') :
    (∃ d ∈ o', intoGlifpoints d = .panic) ↔
      ∃ c ∈ o, (∀ p ∈ c, p.ptype = .offcurve) ∨ ∃ p ∈ typesKept c, p.ptype = .undefined ∨ p.ptype = .qclose := by
  induction h with
  | nil => simp
  | cons hc _ ih => simp only [List.mem_cons, exists_eq_or_imp, ih, reversal_writable hc]

theorem writes_iff (pio : PlistIO D) (g : Glif PD D) : (∃ e, glifXml pio g = .ok e) ↔ glifXml pio g ≠ .panic := by
  cases hx : glifXml pio g with
  | ok e => simp
  | err e => exact absurd hx (C06_no_err pio _ e)
  | panic => simp

/-- **C123.** A reversed outline can be saved exactly if every contour has an on-curve point and, the last points of
open contours apart, no type without a name in the format. -/
theorem C123_saved_iff (pio : PlistIO D) (g : Glif PD D) (o o' : Outline PD) (h : outlineToReversed o = .ok o') :
    (∃ e, glifXml pio { g with outline := some o' } = .ok e) ↔
      ∀ c ∈ o, (∃ p ∈ c, p.ptype ≠ .offcurve) ∧ ∀ p ∈ typesKept c, p.ptype ≠ .undefined ∧ p.ptype ≠ .qclose := by
  rw [writes_iff, ne_eq, glifXml_panic, Option.getD_some, forall₂_panics (((C123_contours o).1 o').1 h)]
  simp only [not_exists, not_and, not_or, not_forall, exists_prop]

/-- **C123.** An outline that can be saved can be reversed, and then saved as well. -/
theorem C123_saved (pio : PlistIO D) (g : Glif PD D) (o : Outline PD) (e : Element)
    (h : glifXml pio { g with outline := some o } = .ok e) :
    ∃ o' e', outlineToReversed o = .ok o' ∧ glifXml pio { g with outline := some o' } = .ok e' := by
  have hp : ¬ glifXml pio { g with outline := some o } = .panic := by rw [h]; nofun
  rw [glifXml_panic] at hp
  simp only [Option.getD_some, C05_panics_iff, not_exists, not_and, not_or, not_forall, exists_prop] at hp
  cases ho : outlineToReversed o with
  | err e => exact absurd ho ((C123_contours o).2.2 e)
  | panic =>
    obtain ⟨⟨p, hp, _⟩, _⟩ := hp [] ((C123_contours o).2.1.1 ho)
    cases hp
  | ok o' =>
    obtain ⟨e', he⟩ := (C123_saved_iff pio g o o' ho).2 fun c hc => by
      refine ⟨(hp c hc).1, fun p hk => (hp c hc).2 p ?_⟩
      unfold typesKept at hk
      split at hk
      · split at hk
        · exact List.dropLast_subset _ hk
        · exact hk
      · exact hk
    exact ⟨o', e', rfl, he⟩

theorem contour_thrice {c d : Contour PD} (h : toReversed c = .ok d) : ∃ c', toReversed d = .ok c' ∧ toReversed c' = .ok d ∧
    (c' = c ↔ EndsByHandles c) := by
  rcases contour_shape c with rfl | ⟨p, rest, rfl, hs⟩ | ⟨p, mid, z, rfl, hm⟩
  · cases h
  · have h' := h
    rw [toReversed_closed hs] at h
    cases h
    have hs' : (swapped p).ptype ≠ .move ∨ rest.reverse.map swapped = [] := by
      rcases hs with hs | hs
      · exact Or.inl hs
      · exact Or.inr (by simp [hs])
    have e2 : (rest.reverse.map swapped).reverse.map swapped = rest := by
      rw [← List.map_reverse, List.reverse_reverse, List.map_map]
      have : (swapped ∘ swapped : Point PD → Point PD) = id := by funext q; rfl
      rw [this, List.map_id]
    refine ⟨p :: rest, ?_, h', ⟨fun _ => ?_, fun _ => rfl⟩⟩
    · rw [toReversed_closed hs', e2, swapped_swapped]
    · intro q m z e hq
      injection e with e1 e2
      subst e1
      rcases hs with hs | hs
      · exact absurd hq hs
      · rw [hs] at e2; simp at e2
  · have h2 := C28_twice p z mid hm
    rw [h, Out.bind_ok] at h2
    refine ⟨_, h2, ?_, ?_⟩
    · rw [toReversed_open hm, ← h, toReversed_open hm]
      cases mid <;> rfl
    · have hi := C28_identity_iff p z mid hm
      rw [h, Out.bind_ok, h2, Out.ok.injEq] at hi
      rw [hi]
      constructor
      · intro e q m w e' hq
        injection e' with e1 e2
        obtain ⟨e3, e4⟩ := List.append_inj' e2 rfl
        cases e4
        subst e1 e3
        exact e
      · intro e
        exact e p mid z rfl hm

/-- **C123.** Reversing an outline three times is reversing it once; twice gives it back exactly if in every open
contour of more than one point the type of the last one is what the handles say. -/
theorem C123_thrice (o o' : Outline PD) (h : outlineToReversed o = .ok o') :
    ∃ o'', outlineToReversed o' = .ok o'' ∧ outlineToReversed o'' = .ok o' ∧ (o'' = o ↔ ∀ c ∈ o, EndsByHandles c) := by
  replace h := ((C123_contours o).1 o').1 h
  unfold EachReversed at h
  suffices ∃ o'', EachReversed o' o'' ∧ EachReversed o'' o' ∧ (o'' = o ↔ ∀ c ∈ o, EndsByHandles c) by
    obtain ⟨o'', h1, h2, h3⟩ := this
    exact ⟨o'', ((C123_contours _).1 _).2 h1, ((C123_contours _).1 _).2 h2, h3⟩
  induction h with
  | nil => exact ⟨[], .nil, .nil, by simp⟩
  | cons hc _ ih =>
    obtain ⟨o'', h1, h2, h3⟩ := ih
    obtain ⟨c'', k1, k2, k3⟩ := contour_thrice hc
    exact ⟨c'' :: o'', .cons k1 h1, .cons k2 h2, by simp [k3, h3]⟩

/-! An outline of a triangle and an open line is reversed and can be saved. -/

example : ∃ o', outlineToReversed [[Sample.pt .line 0 0, Sample.pt .line 9 0, Sample.pt .line 5 7],
    [Sample.pt .move 0 0, Sample.pt .line 3 4]] = .ok o' := ⟨_, rfl⟩

example (pio : PlistIO D) (g : Glif Unit D) : ∃ e, glifXml pio { g with
    outline := some [[Sample.pt .line 0 0, Sample.pt .line 9 0, Sample.pt .line 5 7], [Sample.pt .move 0 0, Sample.pt .line 3 4]] } = .ok e := by
  rw [writes_iff, ne_eq, glifXml_panic]
  simp [C05_panics_iff, Sample.pt]

example : EndsByHandles [Sample.pt .move 0 0, Sample.pt .line 3 4] := by
  intro p mid z e hp
  cases mid with
  | nil => injection e with e1 e2; injection e2 with e3 e4; subst e1 e3; decide +kernel
  | cons q m => simp at e

end GP
