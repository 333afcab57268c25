import Verif.Lemmas.Format
import Verif.Props.FileContours
/-!
# C88–C90: documents as the format wants them
-/
open Fl Fl.Text
namespace GP
open Spec
variable {PD D : Type}

/-! ## Elements written -/

theorem advance_form (w : Nat) (hw : w < 2 ^ 64) : AdvanceForm Representable (advanceXml w) := by
  refine ⟨?_, ?_, ?_⟩
  · intro k s h
    by_contra hk
    simp only [List.mem_cons, List.not_mem_nil, or_false, not_or] at hk
    simp [advanceXml, hk] at h
  · intro s h
    simp only [advanceXml, get_set, if_true, Option.some.injEq] at h
    subst h
    refine (representable_iff _).2 ⟨false, w, 0, ⟨_, Or.inr ⟨rfl, rfl⟩, mantissa_digits w⟩, ?_⟩
    exact round_small hw
  · intro s h
    simp [advanceXml] at h

theorem unicode_form (c : Char) : UnicodeForm (unicodeXml c) := by
  refine ⟨?_, ?_⟩
  · intro k s h
    by_contra hk
    simp only [List.mem_cons, List.not_mem_nil, or_false] at hk
    simp [unicodeXml, hk] at h
  · refine ⟨codepointDisplay c, by simp [unicodeXml], c, ?_⟩
    rw [numeral_iff (by decide)]
    exact parseNat_toDigits (by decide) (by decide) _

theorem anchor_form (a : Anchor) (hx : IsFinite a.x) (hy : IsFinite a.y) : AnchorForm Representable (anchorXml a) := by
  refine ⟨?_, ⟨showFloat a.x, by simp [anchorXml], representable_show hx⟩, ⟨showFloat a.y, by simp [anchorXml], representable_show hy⟩, ?_⟩
  · intro k s h
    by_contra hk
    simp only [List.mem_cons, List.not_mem_nil, or_false, not_or] at hk
    simp [anchorXml, hk] at h
  · intro s h
    simp [anchorXml] at h

theorem matrix_get (e : Element) (m : Mat6) (id : Option Str) :
    (writeMatrix e m id).get "xScale" = some m.xScale.text ∧ (writeMatrix e m id).get "xyScale" = some m.xyScale.text ∧
    (writeMatrix e m id).get "yxScale" = some m.yxScale.text ∧ (writeMatrix e m id).get "yScale" = some m.yScale.text ∧
    (writeMatrix e m id).get "xOffset" = some m.xOffset.text ∧ (writeMatrix e m id).get "yOffset" = some m.yOffset.text := by
  simp [writeMatrix]

theorem matrix_form (e : Element) (m : Mat6) (id : Option Str) (h : FiniteMatrix m) :
    ∀ k ∈ matrixAttrs, May (writeMatrix e m id) k Representable := by
  obtain ⟨h1, h2, h3, h4, h5, h6⟩ := h
  obtain ⟨g1, g2, g3, g4, g5, g6⟩ := matrix_get e m id
  intro k hk s hs
  simp only [matrixAttrs, List.mem_cons, List.not_mem_nil, or_false] at hk
  rcases hk with rfl | rfl | rfl | rfl | rfl | rfl
  · rw [g1] at hs; cases hs; exact representable_text h1
  · rw [g2] at hs; cases hs; exact representable_text h2
  · rw [g3] at hs; cases hs; exact representable_text h3
  · rw [g4] at hs; cases hs; exact representable_text h4
  · rw [g5] at hs; cases hs; exact representable_text h5
  · rw [g6] at hs; cases hs; exact representable_text h6

theorem component_form (c : GlifComponent) (hb : IsName c.base) (hm : FiniteMatrix c.m) : ComponentForm Representable (componentXml c) := by
  refine ⟨?_, ⟨c.base, by simp [componentXml, writeMatrix], hb⟩, matrix_form _ _ _ hm⟩
  intro k s h
  by_contra hk
  simp only [matrixAttrs, List.mem_cons, List.not_mem_nil, or_false, not_or] at hk
  simp [componentXml, writeMatrix, hk] at h

theorem image_form (i : GlifImage) (hf : i.filename ≠ []) (hi : i.identifier = none) (hm : FiniteMatrix i.m) :
    ImageForm Representable (imageXml i) := by
  refine ⟨?_, ⟨i.filename, by simp [imageXml, writeMatrix], hf⟩, ?_, matrix_form _ _ _ hm⟩
  · intro k s h
    by_contra hk
    simp only [matrixAttrs, List.mem_cons, List.not_mem_nil, or_false, not_or] at hk
    simp [imageXml, writeMatrix, hk, hi] at h
  · intro s h
    simp [imageXml, writeMatrix, hi] at h

theorem color_form (c : Color) (h : ColorWithin c) : ColorText c.text := by
  obtain ⟨h1, h2, h3, h4⟩ := h
  exact ⟨c.r.text, c.g.text, c.b.text, c.a.text, ⟨text_no_comma _, text_no_comma _, text_no_comma _, text_no_comma _, rfl⟩,
    within_upTo bound_one h1, within_upTo bound_one h2, within_upTo bound_one h3, within_upTo bound_one h4⟩

theorem guideline_form (l : Guideline) (hx : IsFinite l.x) (hy : IsFinite l.y) (ha : IsFiniteIof l.angle) (ha' : Within 360 l.angle)
    (hc : ∀ c, l.color = some c → ColorWithin c) : GuidelineForm Representable (guidelineXml l) := by
  have gx : (guidelineXml l).get "x" = some (showFloat l.x) := by simp [guidelineXml]
  have gy : (guidelineXml l).get "y" = some (showFloat l.y) := by simp [guidelineXml]
  have ga : (guidelineXml l).get "angle" = some l.angle.text := by simp [guidelineXml]
  have gc : (guidelineXml l).get "color" = l.color.map Color.text := by
    simp [guidelineXml]
    cases l.color <;> rfl
  refine ⟨?_, ?_, ?_, ?_, ?_, ?_, ?_⟩
  · intro k s h
    by_contra hk
    simp only [List.mem_cons, List.not_mem_nil, or_false, not_or] at hk
    simp [guidelineXml, hk] at h
  · intro s h; rw [gx] at h; cases h; exact representable_show hx
  · intro s h; rw [gy] at h; cases h; exact representable_show hy
  · intro s h; rw [ga] at h; cases h; exact ⟨representable_text ha, within_upTo bound_360 ha'⟩
  · intro s h
    rw [gc] at h
    obtain ⟨c, hc', rfl⟩ := Option.map_eq_some_iff.1 h
    exact color_form c (hc c hc')
  · left; rw [gx]; simp
  · rw [gx, gy, ga]; simp

theorem point_types (g : GlifPoint) (hw : Writable g.ptype) (hs : g.ptype = .offcurve → g.smooth = false) :
    (g.ptype = .move ↔ OfType (pointXml g) "move") ∧ (g.ptype = .line ↔ OfType (pointXml g) "line") ∧
    (g.ptype = .curve ↔ OfType (pointXml g) "curve") ∧ (g.ptype = .offcurve ↔ IsOff (pointXml g)) := by
  obtain ⟨t1, t2, t3, -, t5, -⟩ := readPoint_type (readPoint_written g hw hs)
  exact ⟨t1, t2, t3, t5⟩

theorem point_form (g : GlifPoint) (hw : Writable g.ptype) (hs : g.ptype = .offcurve → g.smooth = false) (hx : IsFiniteIof g.x)
    (hy : IsFiniteIof g.y) : PointForm Representable (pointXml g) := by
  obtain ⟨g1, g2, g3, g4, g5⟩ := pointXml_get g
  refine ⟨?_, ⟨_, g1, representable_text hx⟩, ⟨_, g2, representable_text hy⟩, ?_, ?_⟩
  · intro k s h
    by_contra hk
    simp only [List.mem_cons, List.not_mem_nil, or_false, not_or] at hk
    revert h
    unfold pointXml
    generalize "offcurve".toList = oc
    generalize "yes".toList = yes
    simp only []
    split <;> split <;> simp [hk]
  · intro s h
    rw [g4] at h
    rcases hw with e | e | e | e | e <;> rw [e] at h
    · rw [if_neg (by decide)] at h; cases h; right; decide
    · rw [if_neg (by decide)] at h; cases h; right; decide
    · rw [if_neg (by decide)] at h; cases h; right; decide
    · rw [if_neg (by decide)] at h; cases h; right; decide
    · rw [if_pos (by decide)] at h; cases h
  · intro s h
    rw [g5] at h
    split at h
    · next hsm =>
      cases h
      refine Or.inr ⟨rfl, ?_⟩
      rw [← (point_types g hw hs).2.2.2]
      intro ho
      rw [hs ho] at hsm
      cases hsm
    · cases h

/-! ## Contours written -/

/-- How many off-curve points may come before an on-curve point of each type, reading from left to right
after `n` of them. -/
def Scan : Nat → List PointType → Prop
  | _, [] => True
  | n, .offcurve :: l => Scan (n + 1) l
  | n, .move :: l => n = 0 ∧ Scan 0 l
  | n, .line :: l => n = 0 ∧ Scan 0 l
  | n, .curve :: l => n ≤ 2 ∧ Scan 0 l
  | _, _ :: l => Scan 0 l

theorem scan_drop (s : List PointType) : ∀ (n : Nat) (l : List PointType), Scan n (s ++ l) → ∃ k, Scan k l := by
  induction s with
  | nil => intro n l h; exact ⟨n, h⟩
  | cons t s ih =>
    intro n l h
    cases t with
    | move => exact ih _ _ h.2
    | line => exact ih _ _ h.2
    | curve => exact ih _ _ h.2
    | offcurve => exact ih _ _ h
    | qcurve => exact ih _ _ h
    | qclose => exact ih _ _ h
    | undefined => exact ih _ _ h

theorem scan_left (l : List PointType) : ∀ (n : Nat) (t : List PointType), Scan n (l ++ t) → Scan n l := by
  induction l with
  | nil => intro n t h; trivial
  | cons a l ih =>
    intro n t h
    cases a with
    | move => exact ⟨h.1, ih _ _ h.2⟩
    | line => exact ⟨h.1, ih _ _ h.2⟩
    | curve => exact ⟨h.1, ih _ _ h.2⟩
    | offcurve => exact ih (n + 1) _ h
    | qcurve => exact ih 0 _ h
    | qclose => exact ih 0 _ h
    | undefined => exact ih 0 _ h

theorem scan_one (q p : Point PD) (h : Writable p.ptype) (l : List PointType) (hl : Scan 0 l) :
    Scan 0 ((written q p).map (·.ptype) ++ l) := by
  unfold written
  rcases h with e | e | e | e | e <;> simp [e, offsBefore, off, on, Scan, hl]

theorem scan_written (ps : List (Point PD × Point PD)) (h : ∀ x ∈ ps, Writable x.2.ptype) :
    Scan 0 ((ps.flatMap fun (q, p) => written q p).map (·.ptype)) := by
  induction ps with
  | nil => trivial
  | cons x ps ih =>
    obtain ⟨q, p⟩ := x
    rw [List.flatMap_cons, List.map_append]
    exact scan_one q p (h _ List.mem_cons_self) _ (ih fun x hx => h x (List.mem_cons_of_mem _ hx))

theorem rotated_infix {α : Type} {l l' : List α} (h : Rotated l l') : ∃ s t, l ++ l = s ++ (l' ++ t) := by
  obtain ⟨s, t, rfl, rfl⟩ := h
  exact ⟨s, t, by simp⟩

theorem rotated_trans {α : Type} {a b c : List α} (h1 : Rotated a b) (h2 : Rotated b c) : Rotated a c := by
  obtain ⟨s, t, rfl, rfl⟩ := h1
  obtain ⟨u, v, e, rfl⟩ := h2
  rcases List.append_eq_append_iff.1 e with ⟨w, rfl, rfl⟩ | ⟨w, rfl, rfl⟩
  · exact ⟨w, v ++ t, by simp, by simp⟩
  · exact ⟨s ++ u, w, by simp, by simp⟩

theorem rotated_map {α β : Type} {f : α → β} {l : List α} {m : List β} (h : Rotated (l.map f) m) :
    ∃ l', Rotated l l' ∧ m = l'.map f := by
  obtain ⟨s, t, e, rfl⟩ := h
  obtain ⟨a, b, rfl, rfl, rfl⟩ := List.map_eq_append_iff.1 e
  exact ⟨b ++ a, ⟨a, b, rfl, rfl⟩, by simp⟩

theorem rotated_mem {α : Type} {l l' : List α} (h : Rotated l l') {x : α} (hx : x ∈ l') : x ∈ l := by
  obtain ⟨s, t, rfl, rfl⟩ := h
  rcases List.mem_append.1 hx with h | h
  · exact List.mem_append_right _ h
  · exact List.mem_append_left _ h

theorem scan_rotated {c : Contour PD} (hw : ∀ p ∈ c, Writable p.ptype) {l : List GlifPoint} (h : Rotated (fileCycle c) l) :
    ∃ k, Scan k (l.map (·.ptype)) := by
  have h2 : Scan 0 ((fileCycle c ++ fileCycle c).map (·.ptype)) := by
    unfold fileCycle
    rw [← List.flatMap_append]
    refine scan_written _ fun x hx => hw _ ?_
    rw [← mem_cyclicPairs_snd c]
    rcases List.mem_append.1 hx with h | h <;> exact List.mem_map.2 ⟨_, h, rfl⟩
  obtain ⟨s, t, e⟩ := rotated_infix h
  rw [e, List.map_append, List.map_append] at h2
  obtain ⟨k, hk⟩ := scan_drop _ _ _ h2
  exact ⟨k, scan_left _ _ _ hk⟩

theorem fileCycle_finite {c : Contour PD} (h : ∀ p ∈ c, PlacedPoint p) {g : GlifPoint} (hg : g ∈ fileCycle c) :
    IsFiniteIof g.x ∧ IsFiniteIof g.y := by
  have ho : ∀ p ∈ c, IsFinite (outPos p).1 ∧ IsFinite (outPos p).2 := by
    intro p hp
    obtain ⟨hx, hy, ha, -⟩ := h p hp
    unfold outPos
    split
    · next e => exact ha _ _ e
    · exact ⟨hx, hy⟩
  have hi : ∀ p ∈ c, IsFinite (inPos p).1 ∧ IsFinite (inPos p).2 := by
    intro p hp
    obtain ⟨hx, hy, -, hb⟩ := h p hp
    unfold inPos
    split
    · next e => exact hb _ _ e
    · exact ⟨hx, hy⟩
  unfold fileCycle at hg
  obtain ⟨⟨q, p⟩, hm, hg⟩ := List.mem_flatMap.1 hg
  have hp : p ∈ c := by
    rw [← mem_cyclicPairs_snd c]
    exact List.mem_map.2 ⟨_, hm, rfl⟩
  have hq : q ∈ c := by
    unfold cyclicPairs at hm
    split at hm
    · next z hz =>
      rcases List.mem_cons.1 (List.of_mem_zip hm).1 with rfl | h
      · exact List.mem_of_getLast? hz
      · exact h
    · cases hm
  have fl : ∀ {x : F32}, IsFinite x → IsFiniteIof (.float x) := fun hx => Or.inr ⟨_, rfl, hx⟩
  unfold written at hg
  simp only [] at hg
  split at hg
  · cases hg
  · rcases List.mem_append.1 hg with hg | hg
    · unfold offsBefore at hg
      split at hg
      · simp only [List.mem_cons, List.not_mem_nil, or_false] at hg
        rcases hg with rfl | rfl
        · exact ⟨fl (ho q hq).1, fl (ho q hq).2⟩
        · exact ⟨fl (hi p hp).1, fl (hi p hp).2⟩
      · simp only [List.mem_cons, List.not_mem_nil, or_false] at hg
        subst hg
        exact ⟨fl (hi p hp).1, fl (hi p hp).2⟩
      · cases hg
    · simp only [List.mem_cons, List.not_mem_nil, or_false] at hg
      subst hg
      exact ⟨fl (h p hp).1, fl (h p hp).2.1⟩

theorem written_moves {c : Contour PD} (hm : ∀ p ∈ c.tail, p.ptype ≠ .move) (hw : ∀ p ∈ c, Writable p.ptype)
    {x : GlifPoint} {r : List GlifPoint} (h : intoGlifpoints c = .ok (x :: r)) : ∀ g ∈ r, g.ptype ≠ .move := by
  have hu : ∀ p ∈ c, ¬ unwritable p.ptype := by
    intro p hp hh
    rcases hw p hp with h | h | h | h | h <;> rw [h] at hh <;> cases hh <;> contradiction
  cases c with
  | nil => cases h
  | cons c0 ct =>
    by_cases h0 : c0.ptype = .move
    · obtain ⟨z, ps, e1, e2⟩ : ∃ z ps, cyclicPairs (c0 :: ct) = (z, c0) :: ps ∧ ps.map Prod.snd = ct := by
        have := mem_cyclicPairs_snd (c0 :: ct)
        match hc : cyclicPairs (c0 :: ct), this with
        | (z, y) :: ps, h' =>
          simp only [List.map_cons, List.cons.injEq] at h'
          obtain ⟨rfl, h'⟩ := h'
          exact ⟨z, ps, rfl, h'⟩
      have e3 : fileCycle (c0 :: ct) = on c0 :: ps.flatMap fun (q, p) => written q p := by
        unfold fileCycle
        rw [e1, List.flatMap_cons]
        simp [written, offsBefore, h0]
      rw [intoGlifpoints_cycle hu e3, if_neg (by simp [on, h0])] at h
      cases h
      intro g hg
      obtain ⟨⟨q, p⟩, hp, hg⟩ := List.mem_flatMap.1 hg
      have hpt : p.ptype ≠ .move := hm p (by rw [List.tail_cons, ← e2]; exact List.mem_map.2 ⟨_, hp, rfl⟩)
      unfold written offsBefore at hg
      simp only [] at hg
      split at hg
      · cases hg
      · rcases List.mem_append.1 hg with hg | hg
        · split at hg
          · simp only [List.mem_cons, List.not_mem_nil, or_false] at hg
            rcases hg with rfl | rfl <;> simp [off]
          · simp only [List.mem_cons, List.not_mem_nil, or_false] at hg
            subst hg
            simp [off]
          · cases hg
        · simp only [List.mem_cons, List.not_mem_nil, or_false] at hg
          subst hg
          exact hpt
    · have hall : ∀ p ∈ c0 :: ct, p.ptype ≠ .move := by
        intro p hp
        rcases List.mem_cons.1 hp with rfl | hp
        · exact h0
        · exact hm p hp
      intro g hg
      have hon : ∃ p ∈ c0 :: ct, p.ptype ≠ .offcurve := by
        by_contra hcon
        have := (C05_panics_iff (c0 :: ct)).2 (Or.inl fun p hp => by_contra fun hne => hcon ⟨p, hp, hne⟩)
        rw [this] at h
        cases h
      obtain ⟨x', r', h', hrot, -⟩ := C05_file_points _ hon hw
      rw [h] at h'
      cases h'
      rcases fileCycle_mem (rotated_mem hrot (List.mem_cons_of_mem _ hg)) with ⟨xy, rfl⟩ | ⟨p, hp, -, rfl⟩
      · simp [off]
      · exact hall p hp

/-- The points that are written for a contour. -/
theorem contour_order {c : Contour PD} {e : Element} (h : contourXml c = .ok e) : (∀ p ∈ c, Writable p.ptype) ∧
    intoGlifpoints c = .ok (fileOrder c) ∧ (∃ x r, fileOrder c = x :: r) ∧ Rotated (fileCycle c) (fileOrder c) ∧
    named "point" e.children = (fileOrder c).map pointXml ∧ e = glifContourXml (fileOrder c) := by
  unfold contourXml at h
  obtain ⟨gc, h1, h2⟩ := bind_eq_ok.1 h
  cases h2
  have hnp : intoGlifpoints c ≠ .panic := by rw [h1]; exact fun h => nomatch h
  rw [Ne, C05_panics_iff, not_or] at hnp
  obtain ⟨hon, hun⟩ := hnp
  have hw : ∀ p ∈ c, Writable p.ptype := by
    intro p hp
    unfold Writable
    cases e : p.ptype <;> simp
    · exact hun ⟨p, hp, Or.inl e⟩
    · exact hun ⟨p, hp, Or.inr e⟩
  have hon' : ∃ p ∈ c, p.ptype ≠ .offcurve := by
    by_contra hcon
    exact hon fun p hp => by_contra fun hne => hcon ⟨p, hp, hne⟩
  have hu : ∀ p ∈ c, ¬ unwritable p.ptype := by
    intro p hp hh
    rcases hw p hp with h | h | h | h | h <;> rw [h] at hh <;> cases hh <;> contradiction
  obtain ⟨x, r, h1', hrot, hx⟩ := C05_file_points c hon' hw
  rw [h1] at h1'
  cases h1'
  have ho : fileOrder c = x :: r := by
    unfold fileOrder
    cases hf : fileCycle c with
    | nil => rw [hf] at hrot; obtain ⟨s, t, e, e'⟩ := hrot; rw [(List.append_eq_nil_iff.1 e.symm).1, (List.append_eq_nil_iff.1 e.symm).2] at e'; cases e'
    | cons y l =>
      have := intoGlifpoints_cycle hu hf
      rw [h1] at this
      exact (Out.ok.inj this).symm
  rw [ho]
  refine ⟨hw, h1, ⟨x, r, rfl⟩, hrot, ?_, rfl⟩
  unfold glifContourXml
  simp only []
  rw [named_nodes "point" "point" pointXml pointXml_name, if_pos rfl]

theorem contour_form {c : Contour PD} (hf : ∀ p ∈ fileOrder c, IsFiniteIof p.x ∧ IsFiniteIof p.y) (hm : ∀ p ∈ (fileOrder c).tail, p.ptype ≠ .move)
    {e : Element} (h : contourXml c = .ok e) : ContourForm Representable e := by
  obtain ⟨hw, -, ⟨x, r, ho⟩, hrot, hnamed, rfl⟩ := contour_order h
  rw [ho] at hf hm hrot hnamed ⊢
  have hpt : ∀ g ∈ x :: r, Writable g.ptype ∧ (g.ptype = .offcurve → g.smooth = false) ∧ IsFiniteIof g.x ∧ IsFiniteIof g.y := by
    intro g hg
    have hg' := rotated_mem hrot hg
    obtain ⟨fx, fy⟩ := hf g hg
    rcases fileCycle_mem hg' with ⟨xy, rfl⟩ | ⟨p, hp, hn, rfl⟩
    · exact ⟨by simp [off, Writable], fun _ => rfl, fx, fy⟩
    · exact ⟨hw p hp, fun ho => absurd ho hn, fx, fy⟩
  have pull : ∀ {m : List Element}, Rotated ((x :: r).map pointXml) m →
      ∃ l' : List GlifPoint, m = l'.map pointXml ∧ (∀ g ∈ l', g ∈ x :: r) ∧ ∃ k, Scan k (l'.map (·.ptype)) := by
    intro m hm
    obtain ⟨l', hl, rfl⟩ := rotated_map hm
    exact ⟨l', rfl, fun g hg => rotated_mem hl hg, scan_rotated hw (rotated_trans hrot hl)⟩
  refine ⟨?_, ?_, ?_, ?_, ?_, ?_⟩
  · intro k s h
    simp [glifContourXml, Element.get] at h
  · intro n hn
    unfold glifContourXml at hn
    obtain ⟨p, -, rfl⟩ := List.mem_map.1 hn
    simp only [Element.node, pointXml_name]
    exact List.mem_singleton.2 rfl
  · rw [hnamed]
    intro p hp
    obtain ⟨g, hg, rfl⟩ := List.mem_map.1 hp
    obtain ⟨a, b, c, d⟩ := hpt g hg
    exact point_form g a b c d
  · rw [hnamed]
    intro p hp
    rw [List.map_cons, List.tail_cons] at hp
    obtain ⟨g, hg, rfl⟩ := List.mem_map.1 hp
    have tg := hpt g (List.mem_cons_of_mem _ hg)
    rw [← (point_types g tg.1 tg.2.1).1]
    exact hm g hg
  · rw [hnamed]
    intro p q rr hr hq hp
    obtain ⟨l', e, hl, k, hk⟩ := pull hr
    obtain ⟨g1, g2, l'', rfl⟩ : ∃ g1 g2 l'', l' = g1 :: g2 :: l'' := by
      match l', e with
      | g1 :: g2 :: l'', _ => exact ⟨g1, g2, l'', rfl⟩
    simp only [List.map_cons, List.cons.injEq] at e
    obtain ⟨rfl, rfl, -⟩ := e
    have t1 := hpt g1 (hl g1 (by simp))
    have t2 := hpt g2 (hl g2 (by simp))
    obtain ⟨-, -, -, u4⟩ := point_types g1 t1.1 t1.2.1
    obtain ⟨v1, v2, v3, -⟩ := point_types g2 t2.1 t2.2.1
    rw [← u4] at hp
    rw [← v1, ← v2] at hq
    rcases hq with hq | hq <;> simp [hp, hq, Scan] at hk
  · rw [hnamed]
    rintro p p' p'' q rr hr hq ⟨o1, o2, o3⟩
    obtain ⟨l', e, hl, k, hk⟩ := pull hr
    obtain ⟨g1, g2, g3, g4, l'', rfl⟩ : ∃ g1 g2 g3 g4 l'', l' = g1 :: g2 :: g3 :: g4 :: l'' := by
      match l', e with
      | g1 :: g2 :: g3 :: g4 :: l'', _ => exact ⟨g1, g2, g3, g4, l'', rfl⟩
    simp only [List.map_cons, List.cons.injEq] at e
    obtain ⟨rfl, rfl, rfl, rfl, -⟩ := e
    have t1 := hpt g1 (hl g1 (by simp))
    have t2 := hpt g2 (hl g2 (by simp))
    have t3 := hpt g3 (hl g3 (by simp))
    have t4 := hpt g4 (hl g4 (by simp))
    rw [← (point_types g1 t1.1 t1.2.1).2.2.2] at o1
    rw [← (point_types g2 t2.1 t2.2.1).2.2.2] at o2
    rw [← (point_types g3 t3.1 t3.2.1).2.2.2] at o3
    rw [← (point_types g4 t4.1 t4.2.1).2.2.1] at hq
    simp [o1, o2, o3, hq, Scan] at hk

/-! ## Documents written -/

/-- What each name stands for in a written glyph. -/
theorem written_named (pio : PlistIO D) (g : Glif PD D) (oe : Element) (n : String) :
    named n (writtenKids pio g oe) =
      (if "advance" = n then g.width.toList.map advanceXml else []) ++
      (if "unicode" = n then g.unicode.map unicodeXml else []) ++
      (if "anchor" = n then g.anchors.map anchorXml else []) ++
      (if 1 ≤ (oe.children ++ g.components.vec.map fun c => (componentXml c).node).length then
        (if oe.name = n then
          [({ oe with children := oe.children ++ g.components.vec.map fun c => (componentXml c).node } : Element)]
        else []) else []) ++
      (if "image" = n then g.images.map imageXml else []) ++
      (if "guideline" = n then g.guidelines.map guidelineXml else []) ++
      (if "note" = n then g.note.toList.map noteXml else []) ++
      (if n = "lib" then (libXml pio g.lib).toList else []) := by
  have hlib : named n ((libXml pio g.lib).toList.map fun e => e.node) =
      if n = "lib" then (libXml pio g.lib).toList else [] := by
    cases hl : libXml pio g.lib with
    | none => simp [named]
    | some e =>
      rw [Option.toList_some, List.map_singleton, named_node, libXml_name hl]
      by_cases hn : n = "lib" <;> simp [hn, eq_comm]
  unfold writtenKids
  simp only [named_append, hlib]
  rw [named_nodes n "advance" advanceXml (fun _ => rfl), named_nodes n "unicode" unicodeXml (fun _ => rfl),
    named_nodes n "anchor" anchorXml (fun a => by simp), named_nodes n "image" imageXml (fun a => by simp),
    named_nodes n "guideline" guidelineXml (fun a => by simp), named_nodes n "note" noteXml (fun _ => rfl)]
  congr 5
  split
  · rw [named_node]
  · simp [named]

theorem outlineElem_parts {g : Glif PD D} {oe : Element} (h : outlineElem g = .ok oe) :
    ∃ els : List Element, oe = { name := "outline", children := els.map Element.node } ∧
      List.Forall₂ (fun c e => contourXml c = .ok e) (g.outline.getD []) els := by
  unfold outlineElem at h
  cases ho : g.outline with
  | none => rw [ho] at h; cases h; exact ⟨[], rfl, .nil⟩
  | some o =>
    rw [ho] at h
    unfold outlineXml at h
    obtain ⟨els, h1, h2⟩ := bind_eq_ok.1 h
    cases h2
    exact ⟨els, rfl, (mapM'_iff (fun _ _ => Iff.rfl) _ _).1 h1⟩

theorem contourXml_name {c : Contour PD} {e : Element} (h : contourXml c = .ok e) : e.name = "contour" ∧
    e.get "identifier" = none ∧ ∀ p ∈ named "point" e.children, p.get "identifier" = none := by
  unfold contourXml at h
  obtain ⟨gc, h1, h2⟩ := bind_eq_ok.1 h
  cases h2
  refine ⟨rfl, rfl, ?_⟩
  unfold glifContourXml
  simp only []
  rw [named_nodes "point" "point" pointXml pointXml_name, if_pos rfl]
  intro p hp
  obtain ⟨g, -, rfl⟩ := List.mem_map.1 hp
  unfold pointXml
  generalize "offcurve".toList = oc
  generalize "yes".toList = yes
  simp only []
  split <;> split <;> simp

theorem named_contours {els : List Element} (h : ∀ e ∈ els, e.name = "contour") (n : String) :
    named n (els.map Element.node) = if "contour" = n then els else [] := by
  induction els with
  | nil => simp [named]
  | cons e l ih =>
    rw [List.map_cons, named_cons, named_node, h e List.mem_cons_self, ih fun e he => h e (List.mem_cons_of_mem _ he)]
    split <;> rfl

/-- A written glyph: its elements, its contours and components, and its identifiers. -/
theorem written_setup (pio : PlistIO D) (g : Glif PD D) (root : Element) (hr : glifXml pio g = .ok root) :
    ∃ els kids, List.Forall₂ (fun c e => contourXml c = .ok e) (g.outline.getD []) els ∧
      writtenKids pio g { name := "outline", children := els.map Element.node } = kids ∧
      root = { (({ name := "glyph" } : Element).set "name" g.name).set "format" "2".toList with children := kids } ∧
      contoursOf root = els ∧ componentsOf root = g.components.vec.map componentXml ∧
      (identified root).filterMap (·.get "identifier") =
        g.guidelines.filterMap (·.identifier) ++ g.components.vec.filterMap (·.identifier) := by
  rw [glifXml_eq] at hr
  obtain ⟨oe, h1, h2⟩ := bind_eq_ok.1 hr
  cases h2
  obtain ⟨els, rfl, he⟩ := outlineElem_parts h1
  have hcon : ∀ e ∈ els, ∃ c ∈ g.outline.getD [], contourXml c = .ok e := fun e hm => forall₂_mem_right he hm
  have hn : ∀ e ∈ els, e.name = "contour" := fun e hm => by
    obtain ⟨c, -, hc⟩ := hcon e hm
    exact (contourXml_name hc).1
  have hk := written_named pio g { name := "outline", children := els.map Element.node }
  generalize hkids : writtenKids pio g { name := "outline", children := els.map Element.node } = kids at hk ⊢
  have k1 := hk "advance"
  have k2 := hk "unicode"
  have k3 := hk "anchor"
  have k4 := hk "outline"
  have k5 := hk "image"
  have k6 := hk "guideline"
  have k7 := hk "note"
  have k8 := hk "lib"
  simp only [String.reduceEq, if_true, if_false, List.nil_append, List.append_nil, ite_self] at k1 k2 k3 k4 k5 k6 k7 k8
  have hoc : named "contour" (els.map Element.node ++ g.components.vec.map fun c => (componentXml c).node) = els := by
    rw [named_append, named_nodes "contour" "component" componentXml (fun a => by simp), named_contours hn]
    simp
  have hop : named "component" (els.map Element.node ++ g.components.vec.map fun c => (componentXml c).node) =
      g.components.vec.map componentXml := by
    rw [named_append, named_nodes "component" "component" componentXml (fun a => by simp), named_contours hn]
    simp
  have hcs : contoursOf { (({ name := "glyph" } : Element).set "name" g.name).set "format" "2".toList with children := kids } =
      els := by
    unfold contoursOf
    simp only []
    rw [k4]
    by_cases h0 : 1 ≤ (els.map Element.node ++ g.components.vec.map fun c => (componentXml c).node).length
    · rw [if_pos h0]; exact hoc
    · rw [if_neg h0]
      simp only [List.length_append, List.length_map] at h0
      exact (List.length_eq_zero_iff.1 (by omega)).symm
  have hps : componentsOf { (({ name := "glyph" } : Element).set "name" g.name).set "format" "2".toList with children := kids } =
      g.components.vec.map componentXml := by
    unfold componentsOf
    simp only []
    rw [k4]
    by_cases h0 : 1 ≤ (els.map Element.node ++ g.components.vec.map fun c => (componentXml c).node).length
    · rw [if_pos h0]; exact hop
    · rw [if_neg h0]
      simp only [List.length_append, List.length_map] at h0
      rw [List.length_eq_zero_iff.1 (by omega : g.components.vec.length = 0)]
      rfl
  have hid : (identified { (({ name := "glyph" } : Element).set "name" g.name).set "format" "2".toList with
      children := kids }).filterMap (·.get "identifier") =
      g.guidelines.filterMap (·.identifier) ++ g.components.vec.filterMap (·.identifier) := by
    unfold identified
    simp only [hcs, hps, k3, k6, List.filterMap_append, List.filterMap_map]
    have e1 : ∀ l : Guideline, (guidelineXml l).get "identifier" = l.identifier := by
      intro l; simp [guidelineXml]; cases l.identifier <;> rfl
    have e2 : ∀ c : GlifComponent, (componentXml c).get "identifier" = c.identifier := by
      intro l; simp [componentXml, writeMatrix]; cases l.identifier <;> rfl
    have e3 : ∀ a : Anchor, (anchorXml a).get "identifier" = none := by
      intro a; simp [anchorXml]
    have e4 : els.filterMap (·.get "identifier") = [] := by
      refine List.filterMap_eq_nil_iff.2 fun e hm => ?_
      obtain ⟨c, -, hc⟩ := hcon e hm
      exact (contourXml_name hc).2.1
    have e5 : (els.flatMap fun c => named "point" c.children).filterMap (·.get "identifier") = [] := by
      refine List.filterMap_eq_nil_iff.2 fun p hp => ?_
      obtain ⟨e, hm, hp⟩ := List.mem_flatMap.1 hp
      obtain ⟨c, -, hc⟩ := hcon e hm
      exact (contourXml_name hc).2.2 p hp
    rw [e4, e5]
    simp only [Function.comp_def, e1, e2, e3, List.append_nil]
    rw [show (g.anchors.filterMap fun _ => (none : Option Str)) = [] from List.filterMap_eq_nil_iff.2 fun _ _ => rfl]
    simp
  exact ⟨els, kids, he, hkids, rfl, hcs, hps, hid⟩

/-- A glyph is written as a document in the format if it is formed for it and its numbers are finite. -/
theorem formed_written (pio : PlistIO D) (g : Glif PD D) (hwd : ∀ w, g.width = some w → w < 2 ^ 64) (h : Formed g) (hx : FiniteWritten g)
    (root : Element) (hr : glifXml pio g = .ok root) : Conforms Representable root := by
  obtain ⟨els, kids, he, hkids, rfl, hcs, hps, hid⟩ := written_setup pio g root hr
  have hcon : ∀ e ∈ els, ∃ c ∈ g.outline.getD [], contourXml c = .ok e := fun e hm => forall₂_mem_right he hm
  have hn : ∀ e ∈ els, e.name = "contour" := fun e hm => by
    obtain ⟨c, -, hc⟩ := hcon e hm
    exact (contourXml_name hc).1
  have hk := written_named pio g { name := "outline", children := els.map Element.node }
  rw [hkids] at hk
  have k1 := hk "advance"
  have k2 := hk "unicode"
  have k3 := hk "anchor"
  have k4 := hk "outline"
  have k5 := hk "image"
  have k6 := hk "guideline"
  have k7 := hk "note"
  have k8 := hk "lib"
  simp only [String.reduceEq, if_true, if_false, List.nil_append, List.append_nil, ite_self] at k1 k2 k3 k4 k5 k6 k7 k8
  have hoc : named "contour" (els.map Element.node ++ g.components.vec.map fun c => (componentXml c).node) = els := by
    rw [named_append, named_nodes "contour" "component" componentXml (fun a => by simp), named_contours hn]
    simp
  have hop : named "component" (els.map Element.node ++ g.components.vec.map fun c => (componentXml c).node) =
      g.components.vec.map componentXml := by
    rw [named_append, named_nodes "component" "component" componentXml (fun a => by simp), named_contours hn]
    simp
  have hfit : ∀ e ∈ els, ContourForm Representable e := by
    intro e hm
    obtain ⟨c, hc, hce⟩ := hcon e hm
    cases ho : g.outline with
    | none => rw [ho] at hc; cases hc
    | some o =>
      rw [ho] at hc
      exact contour_form (hx.points o ho c hc) (h.moves o ho c hc) hce
  have hget : ∀ n, Element.get { (({ name := "glyph" } : Element).set "name" g.name).set "format" "2".toList with
      children := kids } n = ((({ name := "glyph" } : Element).set "name" g.name).set "format" "2".toList).get n :=
    fun _ => rfl
  refine ⟨rfl, ?_, ⟨g.name, by rw [hget]; simp, h.name⟩, by rw [hget]; simp, ?_, ?_, ?_, ?_, ?_, ?_, ?_, ?_, ?_, ?_⟩
  · intro k s hs
    by_contra hk
    simp only [List.mem_cons, List.not_mem_nil, or_false, not_or] at hk
    rw [hget] at hs
    simp [hk] at hs
  · intro n hn'
    simp only [] at hn'
    rw [← hkids] at hn'
    unfold writtenKids at hn'
    simp only [List.mem_append, List.mem_map] at hn'
    rcases hn' with (((((((⟨w, -, rfl⟩ | ⟨w, -, rfl⟩) | ⟨w, -, rfl⟩) | hn') | ⟨w, -, rfl⟩) | ⟨w, -, rfl⟩) | ⟨w, -, rfl⟩) | ⟨w, hw, rfl⟩)
    · simp only [Element.node, advanceXml_name]; decide
    · simp only [Element.node, unicodeXml_name]; decide
    · simp only [Element.node, anchorXml_name]; decide
    · split at hn'
      · simp only [List.mem_singleton] at hn'
        subst hn'
        simp only [Element.node]; decide
      · cases hn'
    · simp only [Element.node, imageXml_name]; decide
    · simp only [Element.node, guidelineXml_name]; decide
    · simp only [Element.node, noteXml]; decide
    · simp only [Element.node, libXml_name (Option.mem_toList.1 hw)]; decide
  · intro n hn'
    simp only []
    simp only [List.mem_cons, List.not_mem_nil, or_false] at hn'
    rcases hn' with rfl | rfl | rfl | rfl | rfl
    · rw [k1]; cases g.width <;> simp
    · rw [k7]; cases g.note <;> simp
    · rw [k5]; simpa using h.image
    · rw [k4]; split <;> simp
    · rw [k8]; cases libXml pio g.lib <;> simp
  · intro e hm
    simp only [k1] at hm
    obtain ⟨w, hw, rfl⟩ := List.mem_map.1 hm
    exact advance_form w (hwd w (Option.mem_toList.1 hw))
  · intro e hm
    simp only [k2] at hm
    obtain ⟨c, -, rfl⟩ := List.mem_map.1 hm
    exact unicode_form c
  · intro e hm
    simp only [k5] at hm
    obtain ⟨i, hi, rfl⟩ := List.mem_map.1 hm
    obtain ⟨a, b⟩ := h.images i hi
    exact image_form i a b (hx.images i hi)
  · intro e hm
    simp only [k6] at hm
    obtain ⟨l, hl, rfl⟩ := List.mem_map.1 hm
    obtain ⟨d, e⟩ := h.guidelines l hl
    obtain ⟨a, b, c⟩ := hx.guidelines l hl
    exact guideline_form l a b c d e
  · intro e hm
    simp only [k3] at hm
    obtain ⟨a, ha, rfl⟩ := List.mem_map.1 hm
    obtain ⟨x, y⟩ := hx.anchors a ha
    exact anchor_form a x y
  · intro e hm
    simp only [k4] at hm
    split at hm
    · simp only [List.mem_singleton] at hm
      subst hm
      refine ⟨?_, ?_, ?_, ?_⟩
      · intro k s hs
        simp [Element.get] at hs
      · intro n hn'
        simp only [List.mem_append, List.mem_map] at hn'
        rcases hn' with ⟨e, he, rfl⟩ | ⟨c, hc, rfl⟩
        · simp only [Element.node, hn e he]; decide
        · simp only [Element.node, componentXml_name]; decide
      · intro c hc
        simp only [hoc] at hc
        exact hfit c hc
      · intro c hc
        simp only [hop] at hc
        obtain ⟨c, hc', rfl⟩ := List.mem_map.1 hc
        exact component_form c (h.components c hc') (hx.components c hc')
    · cases hm
  · intro s hs
    rw [hid] at hs
    exact h.identifiers s hs
  · rw [hid]
    exact h.unique

/-- A glyph that fits and is written is formed for the format, and its numbers are finite. -/
theorem fits_formed {pio : PlistIO D} {g : Glif PD D} (h : Fits g) {root : Element} (hr : glifXml pio g = .ok root) : Formed g ∧ FiniteWritten g := by
  obtain ⟨els, -, he, -⟩ := written_setup pio g root hr
  have hc : ∀ o, g.outline = some o → ∀ c ∈ o, ∃ e, contourXml c = .ok e := by
    intro o ho c hc
    rw [ho] at he
    obtain ⟨e, -, h⟩ := forall₂_mem_left he hc
    exact ⟨e, h⟩
  refine ⟨⟨h.name, h.image, fun i hi => ⟨(h.images i hi).1, (h.images i hi).2.1⟩, fun l hl => (h.guidelines l hl).2.2.2,
    fun c hc => (h.components c hc).1, h.identifiers, h.unique, ?_⟩,
    ⟨h.anchors, fun i hi => (h.images i hi).2.2, fun l hl => ⟨(h.guidelines l hl).1, (h.guidelines l hl).2.1, (h.guidelines l hl).2.2.1⟩,
    fun c hc => (h.components c hc).2, ?_⟩⟩
  · intro o ho c hcm p hp
    obtain ⟨e, hce⟩ := hc o ho c hcm
    obtain ⟨hw, hi, ⟨x, r, hx⟩, -⟩ := contour_order hce
    rw [hx] at hp hi
    exact written_moves (h.moves o ho c hcm) hw hi p hp
  · intro o ho c hcm p hp
    obtain ⟨e, hce⟩ := hc o ho c hcm
    obtain ⟨-, -, -, hrot, -⟩ := contour_order hce
    exact fileCycle_finite (h.points o ho c hcm) (rotated_mem hrot hp)

/-- **C88.** A glyph that fits the format is written as a document in the format. -/
theorem C88_written (pio : PlistIO D) (g : Glif PD D) (h : Fits g) (root : Element) (hr : glifXml pio g = .ok root) :
    Conforms Representable root :=
  formed_written pio g h.width (fits_formed h hr).1 (fits_formed h hr).2 root hr

example : Fits ({ name := "a".toList, width := some 500, anchors := [{ x := Sample.f 1, y := Sample.f 2, cls := none, atype := .base }]
                  outline := some [[Sample.cv 0 0 1 1 2 2, Sample.pt .line 3 3], [Sample.pt .move 0 0, Sample.pt .line 1 1]]
                  images := [GlifImage.fromFilename "a.png".toList]
                  guidelines := [{ x := Sample.f 1, y := Sample.f 2, angle := .int 90, name := none, color := none, identifier := some "g".toList }] } : Glif Unit D) := by
  have fin : ∀ i : Int, (Sample.f i).isFinite = true → IsFinite (Sample.f i) := by
    intro i h
    cases e : Sample.f i with
    | nan => rw [e] at h; cases h
    | num n k hk =>
      rw [e] at h
      refine ⟨n, k, hk, rfl, ?_⟩
      rintro rfl
      revert h
      simp [Flt.isFinite]
  have placed : ∀ x y, (Sample.f x).isFinite = true → (Sample.f y).isFinite = true → ∀ t, PlacedPoint (Sample.pt t x y) :=
    fun x y hx hy t => ⟨fin x hx, fin y hy, nofun, nofun⟩
  refine ⟨⟨List.cons_ne_nil _ _, ?_⟩, ?_, ?_, Nat.le_refl _, ?_, ?_, fun c hc => absurd hc (List.not_mem_nil), ?_, ?_, ?_, ?_⟩
  · intro c hc
    cases List.mem_singleton.1 hc
    decide
  · intro w hw
    cases hw
    decide
  · intro a ha
    cases List.mem_singleton.1 ha
    exact ⟨fin 1 (by decide +kernel), fin 2 (by decide +kernel)⟩
  · intro i hi
    cases List.mem_singleton.1 hi
    have h : ∀ i h, IsFiniteIof (.int i h) := fun _ _ => Or.inl ⟨_, _, rfl⟩
    exact ⟨List.cons_ne_nil _ _, rfl, h _ _, h _ _, h _ _, h _ _, h _ _, h _ _⟩
  · intro l hl
    cases List.mem_singleton.1 hl
    exact ⟨fin 1 (by decide +kernel), fin 2 (by decide +kernel), Or.inl ⟨_, _, rfl⟩, Or.inl ⟨_, _, rfl, by decide, by decide⟩, fun c hc => absurd hc (by intro h; cases h)⟩
  · intro s hs
    cases List.mem_singleton.1 hs
    unfold IsIdentifier
    decide
  · exact List.pairwise_singleton _ _
  · intro o ho c hc p hp
    cases ho
    simp only [List.mem_cons, List.not_mem_nil, or_false] at hc
    rcases hc with rfl | rfl <;> (simp only [List.mem_cons, List.not_mem_nil, or_false] at hp; rcases hp with rfl | rfl)
    · refine ⟨fin 0 (by decide +kernel), fin 0 (by decide +kernel), ?_, ?_⟩ <;> (intro x y e; cases e)
      · exact ⟨fin 1 (by decide +kernel), fin 1 (by decide +kernel)⟩
      · exact ⟨fin 2 (by decide +kernel), fin 2 (by decide +kernel)⟩
    · exact placed 3 3 (by decide +kernel) (by decide +kernel) _
    · exact placed 0 0 (by decide +kernel) (by decide +kernel) _
    · exact placed 1 1 (by decide +kernel) (by decide +kernel) _
  · intro o ho c hc p hp
    cases ho
    simp only [List.mem_cons, List.not_mem_nil, or_false] at hc
    rcases hc with rfl | rfl <;> (cases List.mem_singleton.1 hp; decide)

end GP
