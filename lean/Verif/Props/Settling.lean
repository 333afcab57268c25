import Verif.Spec.Settling
import Verif.Props.FontDraw
/-!
# C137: the text of a file settles when it is saved over and over
-/
open Fl Fl.Text
namespace GP
open Spec
variable {PD D : Type}

/-! ## What was saved can be said again -/

theorem sayable_saved {pio : PlistIO D} {g : Glif PD D} (h : SayableTexts pio g) : SayableTexts pio (saved g) := by
  refine ⟨h.name, ?_, ?_, ?_, ?_, ?_, h.note, h.plist, h.xml⟩
  · intro a ha s hs
    obtain ⟨b, hb, rfl⟩ := List.mem_map.1 ha
    exact h.anchors b hb s hs
  · intro o ho c hc p hp s hs
    have ho' : o = resavedOutline (g.outline.getD []) := by
      unfold saved at ho
      simp only [] at ho
      split at ho
      · exact (Option.some.inj ho).symm
      · cases ho
    subst ho'
    obtain ⟨c0, hc0, rfl⟩ := List.mem_map.1 hc
    obtain ⟨q, hq, rfl⟩ := List.mem_map.1 hp
    have hc1 := (List.mem_filter.1 hc0).1
    cases hg : g.outline with
    | none => rw [hg] at hc1; cases hc1
    | some o' =>
      rw [hg] at hc1
      obtain ⟨u, v, h1, h2⟩ := C03_same_points c0
      have hm : (q.x, q.y, q.ptype, q.name, q.smooth) ∈ c0.map fun p => (p.x, p.y, p.ptype, p.name, p.smooth) := by
        rw [h1]
        have := List.mem_map_of_mem (f := fun p : Point PD => (p.x, p.y, p.ptype, p.name, p.smooth)) hq
        rw [h2] at this
        rw [List.mem_append] at this ⊢
        exact this.symm
      obtain ⟨p0, hp0, e⟩ := List.mem_map.1 hm
      refine h.points o' hg c0 hc1 p0 hp0 s ?_
      have : p0.name = q.name := by injection e with _ e; injection e with _ e; injection e with _ e; injection e
      rw [this]
      exact hs
  · intro c hc
    obtain ⟨b, hb, rfl⟩ := List.mem_map.1 hc
    exact h.components b hb
  · intro c hc
    obtain ⟨b, hb, rfl⟩ := List.mem_map.1 hc
    exact h.images b hb
  · intro c hc
    obtain ⟨b, hb, rfl⟩ := List.mem_map.1 hc
    exact h.guidelines b hb

theorem saveable_saved {pio : PlistIO D} {g : Glif PD D} (h : Saveable pio g) : Saveable pio (saved g) := (settled_saved h).saveable

theorem saveds_stepped {pio : PlistIO D} {g : Glif PD D} (h : Saveable pio g) (k : Nat) : saved^[k + 1] g = stepped k (saved g) := by
  have key : ∀ k, ∀ f : Glif PD D, Settled pio f → saved^[k] f = stepped k f := by
    intro k
    induction k with
    | zero => intro f _; unfold stepped; cases f with | mk o => cases o <;> simp
    | succ k ih =>
      intro f hf
      rw [Function.iterate_succ_apply, saved_settled hf, ih _ (settled_step hf), stepped_stepped, Nat.add_comm]
  rw [Function.iterate_succ_apply, key k _ (settled_saved h)]

/-! ## Texts and glyphs -/

/-- What is written for a glyph that can be said, and what is read from it. -/
theorem text_of (mid : IOF → IOF → IOF) (pio : PlistIO D) (lay : XmlText.Layout) (hl : Lays lay) (g : Glif PD D) (hs : Saveable pio g)
    (h : SayableTexts pio g) (hb : ∀ n, g.note = some n → ¬ Blank n) :
    ∃ s, writeText pio (XmlText.io lay) g = .ok s ∧ readText mid pio (XmlText.io lay) {} s = .ok (saved g) := by
  obtain ⟨s, g', h1, h2, _⟩ := C97_partial mid pio lay hl g hs h hb
  refine ⟨s, h1, ?_⟩
  rw [C97_text mid pio lay hl {} g h s h1, heard_eq g hb, glif_trip mid pio g hs]

theorem textAfter_eq (mid : IOF → IOF → IOF) (pio : PlistIO D) (lay : XmlText.Layout) (hl : Lays lay) (k : Nat) :
    ∀ (g : Glif PD D), Saveable pio g → SayableTexts pio g → (∀ n, g.note = some n → ¬ Blank n) → ∀ s,
      writeText pio (XmlText.io lay) g = .ok s →
      textAfter PD mid pio (XmlText.io lay) k s = writeText pio (XmlText.io lay) (saved^[k] g) := by
  induction k with
  | zero => intro g _ _ _ s hw; exact hw.symm
  | succ k ih =>
    intro g hs h hb s hw
    obtain ⟨s1, h1, h2⟩ := text_of mid pio lay hl g hs h hb
    rw [hw] at h1
    cases h1
    obtain ⟨s2, h3, _⟩ := text_of mid pio lay hl (saved g) (saveable_saved hs) (sayable_saved h) hb
    unfold textAfter
    rw [h2, Out.bind_ok, h3, Out.bind_ok, Function.iterate_succ_apply]
    exact ih _ (saveable_saved hs) (sayable_saved h) hb s2 h3

/-- Glyphs with the same text are saved as the same glyph. -/
theorem text_inj (mid : IOF → IOF → IOF) (pio : PlistIO D) (lay : XmlText.Layout) (hl : Lays lay) (f g : Glif PD D)
    (hf : Saveable pio f ∧ SayableTexts pio f ∧ ∀ n, f.note = some n → ¬ Blank n)
    (hg : Saveable pio g ∧ SayableTexts pio g ∧ ∀ n, g.note = some n → ¬ Blank n)
    (h : writeText pio (XmlText.io lay) f = writeText pio (XmlText.io lay) g) : saved f = saved g := by
  obtain ⟨s, h1, h2⟩ := text_of mid pio lay hl f hf.1 hf.2.1 hf.2.2
  obtain ⟨t, h3, h4⟩ := text_of mid pio lay hl g hg.1 hg.2.1 hg.2.2
  rw [h1, h3, Out.ok.injEq] at h
  subst h
  rw [h2, Out.ok.injEq] at h4
  exact h4

theorem saveds_sayable {pio : PlistIO D} (k : Nat) : ∀ {g : Glif PD D}, (Saveable pio g ∧ SayableTexts pio g ∧ ∀ n, g.note = some n → ¬ Blank n) →
    Saveable pio (saved^[k] g) ∧ SayableTexts pio (saved^[k] g) ∧ ∀ n, (saved^[k] g).note = some n → ¬ Blank n := by
  induction k with
  | zero => exact id
  | succ k ih =>
    intro g h
    rw [Function.iterate_succ_apply]
    exact ih ⟨saveable_saved h.1, sayable_saved h.2.1, h.2.2⟩

/-! ## Contours -/

theorem stored_kept (c : Contour PD) : Rotated (keptContour c) (stored c) := by
  cases c with
  | nil => exact ⟨[], [], rfl, rfl⟩
  | cons p r =>
    unfold stored
    simp only []
    split
    · exact startEarlier_rotated _
    · exact ⟨[], keptContour (p :: r), rfl, by simp [keptContour]⟩

theorem mem_rotated {α : Type} {l l' : List α} (h : Rotated l l') (a : α) : a ∈ l' ↔ a ∈ l := by
  obtain ⟨s, t, rfl, rfl⟩ := h
  rw [List.mem_append, List.mem_append, or_comm]

theorem rotated_length {α : Type} {l l' : List α} (h : Rotated l l') : l'.length = l.length := by
  obtain ⟨s, t, rfl, rfl⟩ := h
  rw [List.length_append, List.length_append, Nat.add_comm]

theorem stored_types (c : Contour PD) : Rotated (c.map (·.ptype)) (((stored c).map unsigned).map (·.ptype)) := by
  obtain ⟨u, v, h1, h2⟩ := C03_same_points c
  have e1 : c.map (·.ptype) = (c.map fun p => (p.x, p.y, p.ptype, p.name, p.smooth)).map (·.2.2.1) := by rw [List.map_map]; rfl
  have e2 : ((stored c).map unsigned).map (·.ptype) = ((stored c).map fun p => (p.x, p.y, p.ptype, p.name, p.smooth)).map (·.2.2.1) := by
    rw [List.map_map, List.map_map]; rfl
  rw [e1, e2, h1, h2]
  exact ⟨_, _, List.map_append, List.map_append⟩

theorem stored_length (c : Contour PD) : ((stored c).map unsigned).length = c.length := by
  have := rotated_length (stored_types c)
  rwa [List.length_map, List.length_map (f := fun p : Point PD => p.ptype) (as := c)] at this

theorem allCurve_types {c : Contour PD} : AllCurve c ↔ ∀ t ∈ c.map (·.ptype), t = .curve := by
  simp [AllCurve]

theorem stored_allCurve (c : Contour PD) : AllCurve ((stored c).map unsigned) ↔ AllCurve c := by
  rw [allCurve_types, allCurve_types]
  exact forall_congr' fun t => by rw [mem_rotated (stored_types c)]

theorem startEarlier_same {α : Type} (l : List α) : startEarlier l = l ↔ ∀ a ∈ l, ∀ b ∈ l, a = b := by
  have key : ∀ (m : List α) (z : α), m ++ [z] = z :: m → ∀ a ∈ m, a = z := by
    intro m
    induction m with
    | nil => intro z _ a ha; cases ha
    | cons b m ih =>
      intro z h a ha
      rw [List.cons_append] at h
      obtain ⟨rfl, h⟩ := List.cons.inj h
      rcases List.mem_cons.1 ha with rfl | ha
      · rfl
      · exact ih _ h a ha
  rcases List.eq_nil_or_concat l with rfl | ⟨m, z, rfl⟩
  · simp [startEarlier]
  rw [List.concat_eq_append, startEarlier_concat]
  constructor
  · intro h
    have hz : ∀ a ∈ m ++ [z], a = z := by
      intro a ha
      rcases List.mem_append.1 ha with ha | ha
      · exact key m z h.symm a ha
      · exact List.mem_singleton.1 ha
    intro a ha b hb
    rw [hz a ha, hz b hb]
  · intro h
    have hm : m = List.replicate m.length z := List.eq_replicate_of_mem fun a ha => h a (by simp [ha]) z (by simp)
    rw [hm, ← List.replicate_succ', ← List.replicate_succ]

theorem stepBack_allCurve {c : Contour PD} (h : AllCurve c) : stepBack c = startEarlier c := by
  cases c with
  | nil => rfl
  | cons p r => exact if_pos (h p List.mem_cons_self)

/-! ## The property -/

/-- The glyph that is in the file after `k + 1` saves is as after `j + 1` saves if its contours are. -/
theorem saveds_same {pio : PlistIO D} {g : Glif PD D} (h : Saveable pio g) (j k : Nat)
    (hc : ∀ c ∈ resavedOutline (g.outline.getD []), stepBack^[j] c = stepBack^[k] c) : saved^[j + 1] g = saved^[k + 1] g := by
  rw [saveds_stepped h, saveds_stepped h]
  unfold stepped
  have : (saved g).outline.map (fun o => o.map stepBack^[j]) = (saved g).outline.map fun o => o.map stepBack^[k] := by
    unfold saved
    simp only []
    split
    · exact congrArg some (List.map_congr_left hc)
    · rfl
  rw [this]

theorem resaved_mem {g : Glif PD D} {c : Contour PD} (h : c ∈ resavedOutline (g.outline.getD [])) :
    ∃ c0 ∈ g.outline.getD [], c = (stored c0).map unsigned := by
  obtain ⟨c0, hc0, rfl⟩ := List.mem_map.1 h
  exact ⟨c0, (List.mem_filter.1 hc0).1, rfl⟩

/-- **C137.** Saved over and over, a file comes to say the same every `P` saves, `P` being any number that the numbers of points of the
contours of curve points only divide, as soon as it has been saved once more often than any contour has points. -/
theorem C137_period (mid : IOF → IOF → IOF) (pio : PlistIO D) (lay : XmlText.Layout) (hl : Lays lay) (g : Glif PD D) (hs : Saveable pio g)
    (h : SayableTexts pio g) (hb : ∀ n, g.note = some n → ¬ Blank n) (s : Str) (hw : writeText pio (XmlText.io lay) g = .ok s)
    (K P : Nat) (hK : ∀ c ∈ g.outline.getD [], c.length ≤ K) (hP : ∀ c ∈ g.outline.getD [], AllCurve c → c.length ∣ P)
    (k : Nat) (hk : K < k) :
    ∃ t, textAfter PD mid pio (XmlText.io lay) k s = .ok t ∧ textAfter PD mid pio (XmlText.io lay) P t = .ok t := by
  obtain ⟨k, rfl⟩ : ∃ i, k = i + 1 := ⟨k - 1, by omega⟩
  have hok := saveds_sayable (k + 1) ⟨hs, h, hb⟩
  obtain ⟨t, ht, _⟩ := text_of mid pio lay hl _ hok.1 hok.2.1 hok.2.2
  refine ⟨t, by rw [textAfter_eq mid pio lay hl _ g hs h hb s hw, ht], ?_⟩
  rw [textAfter_eq mid pio lay hl P _ hok.1 hok.2.1 hok.2.2 t ht, ← Function.iterate_add_apply, ← Nat.add_assoc,
    saveds_same hs (P + k) k, ht]
  intro c hc
  obtain ⟨c0, hc0, rfl⟩ := resaved_mem hc
  by_cases ha : AllCurve c0
  · have hne : (stored c0).map unsigned ≠ [] := by
      intro e
      have := stored_length c0
      rw [e] at this
      cases hg : g.outline with
      | none => rw [hg] at hc0; cases hc0
      | some o =>
        rw [hg] at hc0
        exact (hs.contours o hg c0 hc0).1 (List.eq_nil_of_length_eq_zero this.symm)
    have hd := hP c0 hc0 ha
    rw [C02_all_curve _ ((stored_allCurve c0).2 ha) hne, C02_all_curve _ ((stored_allCurve c0).2 ha) hne, stored_length]
    obtain ⟨q, rfl⟩ := hd
    rw [Nat.add_comm, Nat.add_mul_mod_self_left]
  · have hx : ∃ p ∈ (stored c0).map unsigned, p.ptype ≠ .curve := by
      by_contra hn
      exact ha ((stored_allCurve c0).1 fun p hp => by by_contra hne; exact hn ⟨p, hp, hne⟩)
    obtain ⟨j, hj, hst⟩ := C02_settles _ hx
    rw [stored_length] at hj
    have := hK c0 hc0
    rw [hst _ (by omega), hst k (by omega)]

/-- **C137.** So a file none of whose contours is of curve points only settles: from then on every save writes the text that is there. -/
theorem C137_settles (mid : IOF → IOF → IOF) (pio : PlistIO D) (lay : XmlText.Layout) (hl : Lays lay) (g : Glif PD D) (hs : Saveable pio g)
    (h : SayableTexts pio g) (hb : ∀ n, g.note = some n → ¬ Blank n) (s : Str) (hw : writeText pio (XmlText.io lay) g = .ok s)
    (K : Nat) (hK : ∀ c ∈ g.outline.getD [], c.length ≤ K) (hc : ∀ c ∈ g.outline.getD [], ¬ AllCurve c) (k : Nat) (hk : K < k) :
    ∃ t, textAfter PD mid pio (XmlText.io lay) k s = .ok t ∧ textAfter PD mid pio (XmlText.io lay) 1 t = .ok t :=
  C137_period mid pio lay hl g hs h hb s hw K 1 hK (fun c hc' ha => absurd ha (hc c hc')) k hk

/-- **C137.** Exactly: the text comes to stay as it is if and only if in every contour of curve points only, as the file has them, all
points are the same. -/
theorem C137_exact (mid : IOF → IOF → IOF) (pio : PlistIO D) (lay : XmlText.Layout) (hl : Lays lay) (g : Glif PD D) (hs : Saveable pio g)
    (h : SayableTexts pio g) (hb : ∀ n, g.note = some n → ¬ Blank n) (s : Str) (hw : writeText pio (XmlText.io lay) g = .ok s) :
    (∃ K, ∀ k, K ≤ k → textAfter PD mid pio (XmlText.io lay) k s = textAfter PD mid pio (XmlText.io lay) K s) ↔
      ∀ c ∈ g.outline.getD [], AllCurve c → ∀ p ∈ keptContour c, ∀ q ∈ keptContour c, unsigned p = unsigned q := by
  have hsame : ∀ c : Contour PD, (∀ p ∈ keptContour c, ∀ q ∈ keptContour c, unsigned p = unsigned q) ↔
      ∀ a ∈ (stored c).map unsigned, ∀ b ∈ (stored c).map unsigned, a = b := by
    intro c
    simp only [List.forall_mem_map, mem_rotated (stored_kept c)]
  constructor
  · rintro ⟨K, hK⟩ c hc ha
    rw [hsame]
    have e : textAfter PD mid pio (XmlText.io lay) (K + 1) s = textAfter PD mid pio (XmlText.io lay) (K + 1 + 1) s := by
      rw [hK (K + 1) (by omega), hK (K + 1 + 1) (by omega)]
    rw [textAfter_eq mid pio lay hl _ g hs h hb s hw, textAfter_eq mid pio lay hl _ g hs h hb s hw] at e
    have e' := text_inj mid pio lay hl _ _ (saveds_sayable (K + 1) ⟨hs, h, hb⟩) (saveds_sayable (K + 1 + 1) ⟨hs, h, hb⟩) e
    rw [← Function.iterate_succ_apply' saved, ← Function.iterate_succ_apply' saved, saveds_stepped hs, saveds_stepped hs] at e'
    have hlone : loneMove c = false := by
      unfold loneMove
      split
      next p => rw [ha p (by simp)]; rfl
      · rfl
    have hm : (stored c).map unsigned ∈ resavedOutline (g.outline.getD []) :=
      List.mem_map.2 ⟨c, List.mem_filter.2 ⟨hc, by rw [hlone]; rfl⟩, rfl⟩
    have ho : (saved g).outline = some (resavedOutline (g.outline.getD [])) := by
      unfold saved
      simp only []
      rw [if_pos]
      rw [Bool.or_eq_true]
      left
      cases hr : resavedOutline (g.outline.getD []) with
      | nil => rw [hr] at hm; cases hm
      | cons a l => rfl
    have e1 := congrArg (·.outline) e'
    unfold stepped at e1
    simp only [ho, Option.map_some, Option.some.injEq] at e1
    have e2 := (List.map_inj_left.1 e1) _ hm
    have hall := (stored_allCurve c).2 ha
    have hrot := C02_step_rotated ((stored c).map unsigned) (K + 1)
    rw [Function.iterate_succ_apply' stepBack (K + 1),
      stepBack_allCurve (c := stepBack^[K + 1] _) fun p hp => hall p ((mem_rotated hrot p).1 hp)] at e2
    intro a ha' b hb'
    exact (startEarlier_same _).1 e2.symm a ((mem_rotated hrot a).2 ha') b ((mem_rotated hrot b).2 hb')
  · intro hc
    obtain ⟨K, hK⟩ : ∃ K, ∀ c ∈ g.outline.getD [], c.length ≤ K := by
      refine ⟨((g.outline.getD []).map List.length).sum, fun c hc => ?_⟩
      exact List.single_le_sum (by simp) _ (List.mem_map_of_mem hc)
    refine ⟨K + 1, fun k hk => ?_⟩
    obtain ⟨k, rfl⟩ : ∃ i, k = i + 1 := ⟨k - 1, by omega⟩
    rw [textAfter_eq mid pio lay hl _ g hs h hb s hw, textAfter_eq mid pio lay hl _ g hs h hb s hw, saveds_same hs k K]
    intro c hc'
    obtain ⟨c0, hc0, rfl⟩ := resaved_mem hc'
    by_cases ha : AllCurve c0
    · have hall := (stored_allCurve c0).2 ha
      have hfix : stepBack ((stored c0).map unsigned) = (stored c0).map unsigned := by
        rw [stepBack_allCurve hall, startEarlier_same]
        exact (hsame c0).1 (hc c0 hc0 ha)
      rw [Function.iterate_fixed hfix, Function.iterate_fixed hfix]
    · have hx : ∃ p ∈ (stored c0).map unsigned, p.ptype ≠ .curve := by
        by_contra hn
        exact ha ((stored_allCurve c0).1 fun p hp => by by_contra hne; exact hn ⟨p, hp, hne⟩)
      obtain ⟨j, hj, hst⟩ := C02_settles _ hx
      rw [stored_length] at hj
      have := hK c0 hc0
      rw [hst _ (by omega), hst K (by omega)]

/-- A glyph with a contour of curve points and a line point, and one of two curve points, meets the hypotheses, and the period is two: its
text does not come to rest. -/
example (mid : IOF → IOF → IOF) (pio : PlistIO D) (lay : XmlText.Layout) (hl : Lays lay) :
    ∃ (g : Glif Unit D) (s : Str), writeText pio (XmlText.io lay) g = .ok s ∧
      (∃ t, textAfter Unit mid pio (XmlText.io lay) 4 s = .ok t ∧ textAfter Unit mid pio (XmlText.io lay) 2 t = .ok t) ∧
      ¬ ∃ K, ∀ k, K ≤ k → textAfter Unit mid pio (XmlText.io lay) k s = textAfter Unit mid pio (XmlText.io lay) K s := by
  let o : Outline Unit := [[Sample.cv 0 0 1 1 2 2, Sample.pt .line 3 3, Sample.pt .curve 1 1], [Sample.pt .curve 0 0, Sample.pt .curve 1 1]]
  let g : Glif Unit D := { name := "a".toList, outline := some o }
  have hs : Saveable pio g := by
    refine ⟨?_, fun w h => (nomatch h), fun a h => (nomatch h), trivial⟩
    intro o' ho c hc
    cases ho
    simp only [o, List.mem_cons, List.not_mem_nil, or_false] at hc
    rcases hc with rfl | rfl
    · exact ⟨by simp, by simp [Cubic, Sample.cv, Sample.pt]⟩
    · exact ⟨by simp, by simp [Cubic, Sample.pt]⟩
  have h : SayableTexts pio g := by
    refine ⟨attr_ascii (s := "a".toList) (by decide +kernel), fun a h => (nomatch h), ?_, fun c h => (nomatch h), fun i h => (nomatch h),
      fun l h => (nomatch h), fun n h => (nomatch h), fun d h => (nomatch h), fun e h => (nomatch h)⟩
    intro o' ho c hc p hp s h
    cases ho
    simp only [o, List.mem_cons, List.not_mem_nil, or_false] at hc
    rcases hc with rfl | rfl
    · simp only [List.mem_cons, List.not_mem_nil, or_false] at hp
      rcases hp with rfl | rfl | rfl <;> cases h
    · simp only [List.mem_cons, List.not_mem_nil, or_false] at hp
      rcases hp with rfl | rfl <;> cases h
  obtain ⟨s, hw, _⟩ := text_of mid pio lay hl g hs h fun n h => (nomatch h)
  refine ⟨g, s, hw, C137_period mid pio lay hl g hs h (fun n h => (nomatch h)) s hw 3 2 ?_ ?_ 4 (by omega), fun hn => ?_⟩
  · intro c hc
    simp only [g, o, Option.getD_some, List.mem_cons, List.not_mem_nil, or_false] at hc
    rcases hc with rfl | rfl <;> simp
  · intro c hc ha
    simp only [g, o, Option.getD_some, List.mem_cons, List.not_mem_nil, or_false] at hc
    rcases hc with rfl | rfl
    · exact absurd (ha (Sample.pt .line 3 3) (by simp)) (by decide)
    · simp
  · have := (C137_exact mid pio lay hl g hs h (fun n h => (nomatch h)) s hw).1 hn [Sample.pt .curve 0 0, Sample.pt .curve 1 1]
      (by simp [g, o]) (by simp [AllCurve, Sample.pt])
      (kept (Sample.pt .curve 0 0) (Sample.pt .curve 1 1)) (by simp [keptContour])
      (kept (Sample.pt .curve 1 1) (Sample.pt .curve 0 0)) (by simp [keptContour])
    have hx := congrArg (·.x) this
    revert hx
    decide +kernel

end GP
