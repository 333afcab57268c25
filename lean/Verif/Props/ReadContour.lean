import Verif.Lemmas.Quad
import Verif.Props.ContourIO
/-!
# C06, C07, C08, C56: what the contour reader keeps, drops and cannot cope with

These are about one contour; `Props.File` lifts them to whole files.
-/
open Fl
namespace GP
variable {PD : Type}
open Spec

/-- The contours the file reader hands over: not empty, and only types a file can name. -/
def FileContour (gc : GlifContour) : Prop := gc ≠ [] ∧ ∀ g ∈ gc, Writable g.ptype

/-! ## C07, one contour -/

/-- Reading a file contour panics exactly if it starts like a cubic contour and has a `qcurve`
point. -/
theorem C07_contour_panics_iff (mid : IOF → IOF → IOF) (g : GlifPoint) (gc : GlifContour)
    (hf : FileContour (g :: gc)) :
    contourOfGlif (PD := PD) mid (g :: gc) = .panic ↔
      (g.ptype = .move ∨ g.ptype = .line ∨ g.ptype = .curve) ∧ ∃ p ∈ gc, p.ptype = .qcurve := by
  have hw := hf.2 g List.mem_cons_self
  unfold contourOfGlif
  rcases hw with h | h | h | h | h <;> simp only [h]
  case inr.inr.inr.inl => simp
  case inr.inr.inr.inr => simp
  all_goals
    rcases cubicContour_types (PD := PD) (g :: gc) with ⟨⟨p, hp, hq⟩, e⟩ | ⟨hn, c, e, _⟩
    · rw [e]
      rcases List.mem_cons.1 hp with rfl | hp
      · rw [h] at hq; cases hq
      · simp only [true_iff]
        exact ⟨by simp, p, hp, hq⟩
    · rw [e]
      constructor
      · intro h; cases h
      · rintro ⟨_, p, hp, hq⟩; exact absurd hq (hn p (List.mem_cons_of_mem _ hp))

/-- There is never an `Err`. -/
theorem C07_contour_no_err (mid : IOF → IOF → IOF) (gc : GlifContour) (e : GErr) :
    contourOfGlif (PD := PD) mid gc ≠ .err e := by
  cases gc with
  | nil => simp [contourOfGlif]
  | cons g gc =>
    unfold contourOfGlif
    rcases cubicContour_types (PD := PD) (g :: gc) with ⟨_, e'⟩ | ⟨_, c, e', _⟩ <;>
      rw [e'] <;> simp only [] <;> cases g.ptype <;> simp

/-- A file contour that panics. -/
example : FileContour [Sample.gp .line 0 0, Sample.gp .offcurve 1 1, Sample.gp .qcurve 2 0]
    ∧ ∃ p ∈ [Sample.gp .offcurve 1 1, Sample.gp .qcurve 2 0], p.ptype = .qcurve := by
  simp [FileContour, Sample.gp, Writable]

/-! ## C08, one contour -/

/-- A file contour is dropped exactly if it starts with an off-curve point, or is a `move` point
followed by off-curve points only. -/
theorem C08_dropped_iff (mid : IOF → IOF → IOF) (g : GlifPoint) (gc : GlifContour)
    (hf : FileContour (g :: gc)) :
    contourOfGlif (PD := PD) mid (g :: gc) = .ok [] ↔
      g.ptype = .offcurve ∨ (g.ptype = .move ∧ ∀ p ∈ gc, p.ptype = .offcurve) := by
  have hw := hf.2 g List.mem_cons_self
  have hfil : (gc.map (·.ptype)).filter isDrawn = [] ∧ (∀ p ∈ gc, p.ptype ≠ .qcurve) ↔
      ∀ p ∈ gc, p.ptype = .offcurve := by
    rw [List.filter_eq_nil_iff]
    constructor
    · rintro ⟨h1, h2⟩ p hp
      have a1 := h1 p.ptype (List.mem_map_of_mem hp)
      have a2 := h2 p hp
      have a3 := hf.2 p (List.mem_cons_of_mem _ hp)
      unfold Writable at a3
      unfold isDrawn at a1
      cases hpt : p.ptype <;> simp_all
    · intro h
      refine ⟨?_, fun p hp => by rw [h p hp]; decide⟩
      intro t ht
      obtain ⟨p, hp, rfl⟩ := List.mem_map.1 ht
      rw [h p hp]; decide
  have cub : (g.ptype = .move ∨ g.ptype = .line ∨ g.ptype = .curve) →
      (cubicContour (PD := PD) (g :: gc) = .ok [] ↔ g.ptype = .move ∧ ∀ p ∈ gc, p.ptype = .offcurve) := by
    intro hd
    rw [← hfil]
    rcases cubicContour_types (PD := PD) (g :: gc) with ⟨⟨p, hp, hq⟩, e⟩ | ⟨hn, c, e, ht⟩
    · rw [e]
      constructor
      · intro h; cases h
      · rintro ⟨hm, _, h2⟩
        rcases List.mem_cons.1 hp with rfl | hp
        · rw [hm] at hq; cases hq
        · exact absurd hq (h2 p hp)
    · rw [e]
      have hg : isDrawn g.ptype = true := by rcases hd with h | h | h <;> rw [h] <;> rfl
      rw [List.map_cons, List.filter_cons_of_pos hg] at ht
      constructor
      · intro h
        cases h
        rw [List.map_nil] at ht
        split at ht
        next h => 
          rw [List.cons.injEq] at h
          exact ⟨h.1, h.2, fun p hp => hn p (List.mem_cons_of_mem _ hp)⟩
        next h => cases ht
      · rintro ⟨hm, h1, _⟩
        rw [h1, hm, if_pos rfl] at ht
        rw [List.map_eq_nil_iff.1 ht]
  unfold contourOfGlif
  rcases hw with h | h | h | h | h <;> simp only [h]
  · rw [cub (Or.inl h), h]; simp
  · rw [cub (Or.inr (Or.inl h)), h]; simp
  · rw [cub (Or.inr (Or.inr h)), h]; simp
  · obtain ⟨rest, e, _⟩ := quadraticContour_inv (PD := PD) mid g gc (by rw [h]; decide)
    rw [e]; simp
  · simp

/-- The contours that are dropped. -/
def dropped (gc : GlifContour) : Bool :=
  match gc with
  | [] => true
  | g :: gc => g.ptype == .offcurve || (g.ptype == .move && gc.all fun p => p.ptype == .offcurve)

/-- Reading an outline keeps, in order, the contours that are not dropped. -/
theorem C08_outline (mid : IOF → IOF → IOF) (gcs : List GlifContour) (hf : ∀ gc ∈ gcs, FileContour gc)
    (o : Outline PD) (h : outlineOfGlif mid gcs = .ok o) :
    (gcs.filter fun gc => !dropped gc).map (contourOfGlif mid) = o.map .ok := by
  have hd : ∀ gc, FileContour gc → (dropped gc = true ↔ contourOfGlif (PD := PD) mid gc = .ok []) := by
    intro gc hgc
    cases gc with
    | nil => exact absurd rfl hgc.1
    | cons g gc => rw [C08_dropped_iff mid g gc hgc]; simp [dropped]
  unfold outlineOfGlif at h
  have gen : ∀ gcs : List GlifContour, (∀ gc ∈ gcs, FileContour gc) → ∀ cs,
      Out.mapM' (contourOfGlif (PD := PD) mid) gcs = .ok cs →
      (gcs.filter fun gc => !dropped gc).map (contourOfGlif mid) =
        (cs.filter fun c => !c.isEmpty).map .ok := by
    intro gcs
    induction gcs with
    | nil => intro _ cs hcs; cases hcs; rfl
    | cons gc gcs ih =>
      intro hf cs hcs
      have hdg := hd gc (hf gc List.mem_cons_self)
      have ih := ih (fun x hx => hf x (List.mem_cons_of_mem _ hx))
      rw [Out.mapM'_cons] at hcs
      cases e : contourOfGlif (PD := PD) mid gc with
      | err e' => rw [e] at hcs; cases hcs
      | panic => rw [e] at hcs; cases hcs
      | ok c =>
        rw [e, Out.bind_ok] at hcs
        cases e2 : Out.mapM' (contourOfGlif (PD := PD) mid) gcs with
        | err e' => rw [e2] at hcs; cases hcs
        | panic => rw [e2] at hcs; cases hcs
        | ok cs' =>
          rw [e2, Out.bind_ok] at hcs
          cases hcs
          rw [List.filter_cons, List.filter_cons]
          rw [e] at hdg
          cases c with
          | nil =>
            rw [hdg.2 rfl]
            simp only [Bool.not_true, Bool.false_eq_true, if_false, List.isEmpty_nil]
            exact ih cs' e2
          | cons p c =>
            have : dropped gc = false := by
              cases hh : dropped gc with
              | false => rfl
              | true => exact absurd (hdg.1 hh) (by simp)
            rw [this]
            simp only [List.isEmpty_cons, Bool.not_false, if_true, List.map_cons, e]
            rw [ih cs' e2]
  cases e : Out.mapM' (contourOfGlif (PD := PD) mid) gcs with
  | err e' => rw [e] at h; cases h
  | panic => rw [e] at h; cases h
  | ok cs =>
    rw [e, Out.bind_ok] at h
    cases h
    exact gen gcs hf cs e

/-- C08 as stated is false: a closed contour with three segments that starts with an off-curve
point, as the UFO format allows, is dropped. -/
theorem C08_false (mid : IOF → IOF → IOF) :
    ∃ gc : GlifContour, FileContour gc ∧ 2 ≤ (gc.filter fun g => g.ptype ≠ .offcurve).length ∧
      outlineOfGlif (PD := PD) mid [gc] = .ok [] := by
  refine ⟨[Sample.gp .offcurve 0 1, Sample.gp .curve 0 0, Sample.gp .line 5 0, Sample.gp .line 5 5,
    Sample.gp .offcurve 3 6], ⟨by simp, by simp [Sample.gp, Writable]⟩, by simp [Sample.gp], ?_⟩
  simp [outlineOfGlif, Out.mapM'_cons, contourOfGlif, Sample.gp]

/-- A contour that starts with an on-curve point and has another on-curve point is kept, if reading
does not panic. -/
theorem C08_partial (mid : IOF → IOF → IOF) (g : GlifPoint) (gc : GlifContour) (hf : FileContour (g :: gc))
    (h1 : g.ptype ≠ .offcurve) (h2 : ∃ p ∈ gc, p.ptype ≠ .offcurve) :
    contourOfGlif (PD := PD) mid (g :: gc) ≠ .ok [] := by
  rw [Ne, C08_dropped_iff mid g gc hf]
  rintro (h | ⟨_, h⟩)
  · exact h1 h
  · obtain ⟨p, hp, hn⟩ := h2; exact hn (h p hp)

example : FileContour [Sample.gp .curve 0 0, Sample.gp .line 5 0] ∧ (Sample.gp .curve 0 0).ptype ≠ .offcurve
    ∧ ∃ p ∈ [Sample.gp .line 5 0], p.ptype ≠ .offcurve := by
  simp [FileContour, Sample.gp, Writable]

/-! ## C06, one contour -/

/-- A contour read from a file cannot be written exactly if it started with `qcurve` and ended with
an off-curve point. -/
theorem C06_contour_panics_iff (mid : IOF → IOF → IOF) (g : GlifPoint) (gc : GlifContour)
    (hf : FileContour (g :: gc)) (c : Contour PD) (hne : c ≠ [])
    (h : contourOfGlif mid (g :: gc) = .ok c) :
    intoGlifpoints c = .panic ↔ g.ptype = .qcurve ∧ ∃ z, gc.getLast? = some z ∧ z.ptype = .offcurve := by
  rw [C05_panics_iff]
  have hw := hf.2 g List.mem_cons_self
  have cub : (g.ptype = .move ∨ g.ptype = .line ∨ g.ptype = .curve) →
      cubicContour (PD := PD) (g :: gc) = .ok c →
      ¬ ((∀ p ∈ c, p.ptype = .offcurve) ∨ ∃ p ∈ c, p.ptype = .undefined ∨ p.ptype = .qclose) := by
    intro _ hc
    rcases cubicContour_types (PD := PD) (g :: gc) with ⟨_, e⟩ | ⟨_, c', e, ht⟩
    · rw [e] at hc; cases hc
    · rw [e] at hc; cases hc
      have hd : ∀ p ∈ c, isDrawn p.ptype = true := by
        intro p hp
        have : p.ptype ∈ c.map (·.ptype) := List.mem_map_of_mem hp
        rw [ht] at this
        split at this
        · cases this
        · exact (List.mem_filter.1 this).2
      rintro (h | ⟨p, hp, h⟩)
      · cases c with
        | nil => exact hne rfl
        | cons p c =>
          have := hd p List.mem_cons_self
          rw [h p List.mem_cons_self] at this; exact absurd this (by decide)
      · have := hd p hp
        rcases h with h | h <;> rw [h] at this <;> exact absurd this (by decide)
  unfold contourOfGlif at h
  rcases hw with e | e | e | e | e <;> simp only [e] at h
  · exact ⟨fun hh => absurd hh (cub (Or.inl e) h), fun hh => by rw [e] at hh; exact absurd hh.1 (by decide)⟩
  · exact ⟨fun hh => absurd hh (cub (Or.inr (Or.inl e)) h), fun hh => by rw [e] at hh; exact absurd hh.1 (by decide)⟩
  · exact ⟨fun hh => absurd hh (cub (Or.inr (Or.inr e)) h), fun hh => by rw [e] at hh; exact absurd hh.1 (by decide)⟩
  · obtain ⟨rest, eq, ht, hq, _⟩ := quadraticContour_inv (PD := PD) mid g gc (by rw [e]; decide)
    rw [eq] at h
    cases h
    have hnq : ∀ g' ∈ gc, g'.ptype ≠ .qclose := by
      intro g' hg' h
      have := hf.2 g' (List.mem_cons_of_mem _ hg')
      rw [h] at this
      simp [Writable] at this
    rw [← hq hnq]
    have hgt : (Point.ofGp (PD := PD) g).ptype = .qcurve := e
    simp only [e, true_and]
    constructor
    · rintro (h | ⟨p, hp, h⟩)
      · have := h _ List.mem_cons_self
        rw [hgt] at this; cases this
      · rcases List.mem_cons.1 hp with rfl | hp
        · rw [hgt] at h; simp at h
        · rcases h with h | h
          · rcases (ht p hp).2 with t | t | t | ⟨g', hg', t⟩
            · rw [t] at h; cases h
            · rw [t] at h; cases h
            · rw [t] at h; cases h
            · have := hf.2 g' (List.mem_cons_of_mem _ hg')
              rw [← t, h] at this
              simp [Writable] at this
          · exact ⟨p, hp, h⟩
    · rintro ⟨p, hp, h⟩
      exact Or.inr ⟨p, List.mem_cons_of_mem _ hp, Or.inr h⟩
  · cases h; exact absurd rfl hne

/-- A closed quadratic contour as fonts have them: it is read, and cannot be written. -/
example : FileContour [Sample.gp .qcurve 0 0, Sample.gp .offcurve 1 1, Sample.gp .qcurve 2 0, Sample.gp .offcurve 1 (-1)]
    ∧ (Sample.gp .qcurve 0 0).ptype = .qcurve
    ∧ ∃ z, [Sample.gp .offcurve 1 1, Sample.gp .qcurve 2 0, Sample.gp .offcurve 1 (-1)].getLast? = some z ∧ z.ptype = .offcurve := by
  simp [FileContour, Sample.gp, Writable]

/-! ## C56 -/

/-- Whatever control points a quadratic contour had: after reading and writing every off-curve point
sits on the on-curve point after it, so all its curves have become straight. -/
theorem C56_controls_lost (mid : IOF → IOF → IOF) (g : GlifPoint) (gc : GlifContour)
    (hg : g.ptype = .qcurve) (hn : ∀ p ∈ gc, p.ptype ≠ .curve)
    (r : GlifContour)
    (h : (contourOfGlif (PD := PD) mid (g :: gc) >>= intoGlifpoints) = .ok r) :
    ∀ p ∈ r, p.ptype = .offcurve → ∃ q ∈ r, q.ptype = .qcurve ∧ q.x = p.x ∧ q.y = p.y := by
  obtain ⟨rest, eq, ht, hq, _⟩ := quadraticContour_inv (PD := PD) mid g gc (by rw [hg]; decide)
  have e1 : contourOfGlif (PD := PD) mid (g :: gc) = .ok (Point.ofGp g :: rest) := by
    unfold contourOfGlif
    simp only [hg, eq]
  rw [e1, Out.bind_ok] at h
  generalize hc : Point.ofGp (PD := PD) g :: rest = c at h
  have hbare : ∀ p ∈ c, Bare p ∧ p.ptype ≠ .curve := by
    intro p hp
    rw [← hc] at hp
    rcases List.mem_cons.1 hp with rfl | hp
    · exact ⟨bare_ofGp _, by show g.ptype ≠ _; rw [hg]; decide⟩
    · refine ⟨(ht p hp).1, ?_⟩
      rcases (ht p hp).2 with t | t | t | ⟨g', hg', t⟩
      · rw [t]; decide
      · rw [t]; decide
      · rw [t]; decide
      · rw [t]; exact hn g' hg'
  have hnp : ¬ intoGlifpoints c = .panic := by rw [h]; simp
  rw [C05_panics_iff] at hnp
  have h1 : ∃ p ∈ c, p.ptype ≠ .offcurve := by
    by_contra hh; exact hnp (Or.inl fun p hp => by by_contra ho; exact hh ⟨p, hp, ho⟩)
  have h2 : ∀ p ∈ c, Writable p.ptype := by
    intro p hp
    have : ¬ (p.ptype = .undefined ∨ p.ptype = .qclose) := fun hh => hnp (Or.inr ⟨p, hp, hh⟩)
    unfold Writable
    cases hpt : p.ptype <;> simp_all
  obtain ⟨x, r', e, ⟨s, t, hs, htt⟩, _⟩ := C05_file_points c h1 h2
  rw [h] at e
  cases e
  have hmem : ∀ y, y ∈ x :: r' ↔ y ∈ fileCycle c := by
    intro y; rw [hs, htt]; simp [or_comm]
  intro p hp ho
  rw [hmem] at hp
  obtain ⟨⟨q, k⟩, hk, hpk⟩ := List.mem_flatMap.1 hp
  have hkc : k ∈ c := by rw [← mem_cyclicPairs_snd c]; exact List.mem_map_of_mem hk
  have hb := hbare k hkc
  refine ⟨on k, ?_, ?_⟩
  · rw [hmem]
    refine List.mem_flatMap.2 ⟨(q, k), hk, ?_⟩
    show on k ∈ written q k
    change p ∈ written q k at hpk
    unfold written at hpk ⊢
    split
    · simp_all
    · simp
  · change p ∈ written q k at hpk
    unfold written at hpk
    split at hpk
    · cases hpk
    · rcases List.mem_append.1 hpk with hpk | hpk
      · unfold offsBefore at hpk
        split at hpk
        next e => exact absurd e hb.2
        next e =>
          rw [List.mem_singleton] at hpk
          subst hpk
          refine ⟨e, ?_⟩
          simp [on, off, inPos, hb.1.2]
        next => cases hpk
      · rw [List.mem_singleton] at hpk
        subst hpk
        contradiction

/-- And the contour that was written cannot be written a second time: saving, loading and saving
again panics, for every purely quadratic contour. -/
theorem C56_second_save_panics (mid : IOF → IOF → IOF) (c : Contour PD)
    (h1 : ∃ p ∈ c, p.ptype = .qcurve) (h2 : ∀ p ∈ c, p.ptype = .qcurve ∨ p.ptype = .offcurve) :
    ∃ r c', intoGlifpoints c = .ok r ∧ contourOfGlif (PD := PD) mid r = .ok c' ∧
      intoGlifpoints c' = .panic := by
  have hw : ∀ p ∈ c, Writable p.ptype := by
    intro p hp; rcases h2 p hp with h | h <;> simp [Writable, h]
  have hu : ∀ p ∈ c, ¬ unwritable p.ptype := by
    intro p hp hh
    rcases h2 p hp with h | h <;> rw [h] at hh <;> cases hh <;> contradiction
  have hblock : ∀ l : List (Point PD × Point PD), (∀ x ∈ l, x.2.ptype = .qcurve ∨ x.2.ptype = .offcurve) →
      (l.flatMap fun x => written x.1 x.2) = [] ∨
      ∃ a b r, (l.flatMap fun x => written x.1 x.2) = a :: r ++ [b] ∧ a.ptype = .offcurve ∧ b.ptype = .qcurve ∧
        (∀ y ∈ r, y.ptype = .qcurve ∨ y.ptype = .offcurve) ∧
        ∃ z, (a :: r).getLast? = some z ∧ z.ptype = .offcurve := by
    intro l
    induction l with
    | nil => intro _; exact Or.inl rfl
    | cons x l ih =>
      intro hl
      rw [List.flatMap_cons]
      rcases hl x List.mem_cons_self with h | h
      · right
        have e : written x.1 x.2 = [off (inPos x.2), on x.2] := by simp [written, offsBefore, h]
        rw [e]
        rcases ih (fun y hy => hl y (List.mem_cons_of_mem _ hy)) with e2 | ⟨a, b, r, e2, ha, hb, hr, hz⟩
        · rw [e2]
          exact ⟨off (inPos x.2), on x.2, [], rfl, rfl, h, by simp, by simp⟩
        · rw [e2]
          refine ⟨off (inPos x.2), b, on x.2 :: a :: r, by simp, rfl, hb, ?_, by
            rw [List.getLast?_cons_cons, List.getLast?_cons_cons]; exact hz⟩
          intro y hy
          rcases List.mem_cons.1 hy with rfl | hy
          · exact Or.inl h
          · rcases List.mem_cons.1 hy with rfl | hy
            · exact Or.inr ha
            · exact hr y hy
      · have e : written x.1 x.2 = [] := by simp [written, h]
        rw [e, List.nil_append]
        exact ih (fun y hy => hl y (List.mem_cons_of_mem _ hy))
  rcases hblock (cyclicPairs c) (fun x hx => h2 _ (by
      rw [← mem_cyclicPairs_snd c]; exact List.mem_map_of_mem hx)) with e | ⟨a, b, r, e, ha, hb, hr, hz⟩
  · exfalso
    obtain ⟨p, hp, ho⟩ := h1
    rw [← mem_cyclicPairs_snd c] at hp
    obtain ⟨⟨q, p'⟩, hm, rfl⟩ := List.mem_map.1 hp
    have : written q p' = [] := (List.flatMap_eq_nil_iff.1 e) (q, p') hm
    simp only at ho
    simp [written, ho] at this
  · have hcyc : fileCycle c = a :: (r ++ [b]) := e
    have hw1 : intoGlifpoints c = .ok (b :: a :: r) := by
      rw [intoGlifpoints_cycle hu hcyc, if_pos ha]
      have : a :: (r ++ [b]) = (a :: r) ++ [b] := rfl
      rw [this, startEarlier_concat]
    obtain ⟨rest, eq, _⟩ := quadraticContour_inv (PD := PD) mid b (a :: r) (by rw [hb]; decide)
    have hrd : contourOfGlif (PD := PD) mid (b :: a :: r) = .ok (quadraticContour mid (b :: a :: r)) := by
      unfold contourOfGlif; simp only [hb]
    refine ⟨_, _, hw1, hrd, ?_⟩
    have hfc : FileContour (b :: a :: r) := by
      refine ⟨by simp, ?_⟩
      intro y hy
      rcases List.mem_cons.1 hy with rfl | hy
      · simp [Writable, hb]
      · rcases List.mem_cons.1 hy with rfl | hy
        · simp [Writable, ha]
        · rcases hr y hy with h | h <;> simp [Writable, h]
    rw [C06_contour_panics_iff mid b (a :: r) hfc _ (by rw [eq]; simp) hrd]
    exact ⟨hb, hz⟩

/-- C56 as stated is false: the control point (1, 2) of this contour is gone after one trip. -/
theorem C56_false (mid : IOF → IOF → IOF) :
    ∃ gc r : GlifContour, FileContour gc ∧ (contourOfGlif (PD := Unit) mid gc >>= intoGlifpoints) = .ok r ∧
      Sample.gp .offcurve 1 2 ∈ gc ∧ Sample.gp .offcurve 1 2 ∉ r := by
  refine ⟨[Sample.gp .qcurve 0 0, Sample.gp .offcurve 1 2, Sample.gp .qcurve 2 0],
    [Sample.gp .qcurve 2 0, Sample.gp .offcurve 0 0, Sample.gp .qcurve 0 0, Sample.gp .offcurve 2 0],
    ?_, rfl, ?_, ?_⟩
  · simp [FileContour, Sample.gp, Writable]
  · simp
  · decide +kernel

/-- The on-curve points, however, survive: this is all that is true of quadratic contours.  (Missing
from C56: the control points, and that the result can be written again.) -/
theorem C56_partial (c : Contour PD) (r : List GlifPoint) (h : intoGlifpoints c = .ok r) :
    Rotated ((c.filter fun p => p.ptype ≠ .offcurve).map on) (r.filter fun g => g.ptype ≠ .offcurve) :=
  C05_on_curve_points c r h

example : (∃ p ∈ [Sample.pt .qcurve 0 0, Sample.pt .offcurve 1 2, Sample.pt .qcurve 2 0], p.ptype = .qcurve) ∧
    ∀ p ∈ [Sample.pt .qcurve 0 0, Sample.pt .offcurve 1 2, Sample.pt .qcurve 2 0],
      p.ptype = .qcurve ∨ p.ptype = .offcurve := by
  simp [Sample.pt]

end GP
