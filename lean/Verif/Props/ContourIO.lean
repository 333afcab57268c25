import Mathlib.Tactic.ByContra
import Verif.Lemmas.ContourIO2
import Verif.Props.Sample
/-!
# C03, C04, C05, C08: contours to file points and back
-/
open Fl
namespace GP
variable {PD : Type}
open Spec

/-! ## C05 -/

/-- Which contours cannot be written. -/
theorem C05_panics_iff (c : Contour PD) : intoGlifpoints c = .panic ↔
    (∀ p ∈ c, p.ptype = .offcurve) ∨ ∃ p ∈ c, p.ptype = .undefined ∨ p.ptype = .qclose := by
  constructor
  · intro h
    by_cases hu : ∃ p ∈ c, unwritable p.ptype
    · exact Or.inr hu
    · have hu' : ∀ p ∈ c, ¬ unwritable p.ptype := fun p hp hh => hu ⟨p, hp, hh⟩
      left
      intro p hp
      cases hf : fileCycle c with
      | cons x r => rw [intoGlifpoints_cycle hu' hf] at h; cases h
      | nil =>
        have hp' : p ∈ (cyclicPairs c).map Prod.snd := by rw [mem_cyclicPairs_snd]; exact hp
        obtain ⟨⟨q, p'⟩, hm, rfl⟩ := List.mem_map.1 hp'
        have hw : written q p' = [] := by
          have := (List.flatMap_eq_nil_iff.1 hf) (q, p') hm
          exact this
        by_contra ho
        simp [written, ho] at hw
  · rintro (h | h)
    · by_cases hc : c = []
      · subst hc; rfl
      · rw [intoGlifpoints_eq _ hc]
        · have : fileCycle c = [] := by
            apply List.flatMap_eq_nil_iff.2
            rintro ⟨q, p⟩ hm
            have hp : p ∈ c := by
              rw [← mem_cyclicPairs_snd c]; exact List.mem_map_of_mem hm
            show written q p = []
            simp [written, h p hp]
          rw [this]; rfl
        · intro p hp hu; rw [h p hp] at hu; cases hu <;> contradiction
    · exact intoGlifpoints_unwritable h

/-- Otherwise the file points are, up to the choice of the start, for each on-curve point its
off-curve points followed by the point, in order; and they start with an on-curve point. -/
theorem C05_file_points (c : Contour PD) (hon : ∃ p ∈ c, p.ptype ≠ .offcurve)
    (hw : ∀ p ∈ c, Writable p.ptype) :
    ∃ x r, intoGlifpoints c = .ok (x :: r) ∧ Rotated (fileCycle c) (x :: r) ∧ x.ptype ≠ .offcurve := by
  have hu : ∀ p ∈ c, ¬ unwritable p.ptype := by
    intro p hp hh
    rcases hw p hp with h | h | h | h | h <;> rw [h] at hh <;> cases hh <;> contradiction
  cases hf : fileCycle c with
  | nil =>
    exfalso
    obtain ⟨p, hp, ho⟩ := hon
    rw [← mem_cyclicPairs_snd c] at hp
    obtain ⟨⟨q, p'⟩, hm, rfl⟩ := List.mem_map.1 hp
    have : written q p' = [] := (List.flatMap_eq_nil_iff.1 hf) (q, p') hm
    simp [written, ho] at this
  | cons x r =>
    rw [intoGlifpoints_cycle hu hf]
    by_cases hx : x.ptype = .offcurve
    · simp only [hx, if_true]
      rcases fileCycle_last c with h | ⟨r', z, h, hz⟩
      · rw [hf] at h; cases h
      · rw [hf] at h
        rw [h, startEarlier_concat]
        exact ⟨z, r', rfl, ⟨r', [z], rfl, rfl⟩, hz⟩
    · simp only [hx, if_false]
      exact ⟨x, r, rfl, ⟨[], x :: r, rfl, by simp⟩, hx⟩

/-- The on-curve points written are those of the contour, in cyclic order. -/
theorem C05_on_curve_points (c : Contour PD) (r : List GlifPoint) (h : intoGlifpoints c = .ok r) :
    Rotated ((c.filter fun p => p.ptype ≠ .offcurve).map on) (r.filter fun g => g.ptype ≠ .offcurve) := by
  have hnp : ¬ intoGlifpoints c = .panic := by rw [h]; simp
  rw [C05_panics_iff] at hnp
  have h1 : ∃ p ∈ c, p.ptype ≠ .offcurve := by
    by_contra hh; exact hnp (Or.inl fun p hp => by by_contra ho; exact hh ⟨p, hp, ho⟩)
  have h2 : ∀ p ∈ c, Writable p.ptype := by
    intro p hp
    have : ¬ (p.ptype = .undefined ∨ p.ptype = .qclose) := fun hh => hnp (Or.inr ⟨p, hp, hh⟩)
    unfold Writable
    cases hpt : p.ptype <;> simp_all
  obtain ⟨x, r', e, ⟨s, t, hs, ht⟩, _⟩ := C05_file_points c h1 h2
  rw [h] at e
  cases e
  refine ⟨s.filter _, t.filter _, ?_, by rw [ht, List.filter_append]⟩
  rw [← List.filter_append, ← hs]
  have key : ∀ l : List (Point PD × Point PD),
      (l.flatMap fun x => written x.1 x.2).filter (fun g : GlifPoint => decide (g.ptype ≠ .offcurve)) =
      ((l.map Prod.snd).filter fun p => decide (p.ptype ≠ .offcurve)).map on := by
    intro l
    induction l with
    | nil => rfl
    | cons y l ih =>
      rw [List.flatMap_cons, List.filter_append, ih, List.map_cons, List.filter_cons]
      by_cases ho : y.2.ptype = .offcurve
      · simp [written, ho]
      · simp only [written, ho, if_false, ne_eq, not_false_eq_true, decide_true, if_true,
          List.map_cons]
        rw [List.filter_append]
        have : (offsBefore y.1 y.2).filter (fun g : GlifPoint => decide (¬ g.ptype = .offcurve)) = [] := by
          unfold offsBefore
          cases y.2.ptype <;> simp
        rw [this]
        simp [ho]
  have := key (cyclicPairs c)
  rw [mem_cyclicPairs_snd] at this
  exact this.symm

/-- A contour with curves, a line and an off-curve typed point that can be written. -/
example : (∃ p ∈ ([.undefined, .move] : List PointType).map (Sample.pt · 0 0), p.ptype = .undefined ∨ p.ptype = .qclose)
    ∧ (∃ p ∈ [Sample.cv 0 0 1 1 2 2, Sample.pt .line 3 3, Sample.pt .offcurve 1 1], p.ptype ≠ .offcurve)
    ∧ (∀ p ∈ [Sample.cv 0 0 1 1 2 2, Sample.pt .line 3 3, Sample.pt .offcurve 1 1], Writable p.ptype) := by
  simp [Sample.pt, Sample.cv, Writable]

/-! ## C03 -/

/-- Writing and reading a cubic contour.  `stored c` (see `Spec.ContourIO`) has the points of `c`,
with explicit handles where a curve segment is, starting one point earlier if `c` starts with a
curve point. -/
theorem C03_cubic_round_trip (mid : IOF → IOF → IOF) (c : Contour PD) (hc : Cubic c) (hne : c ≠ [])
    (hm : ∀ p, c = [p] → p.ptype ≠ .move) :
    (intoGlifpoints c >>= contourOfGlif mid) = .ok (stored c) := by
  obtain ⟨h, rest, hs, hw⟩ := intoGlifpoints_cubic hc hne
  have hmem : ∀ p, p ∈ start c ↔ p ∈ c := by
    intro p
    cases c with
    | nil => rfl
    | cons q l =>
      unfold start; simp only []
      split
      · exact mem_startEarlier
      · rfl
  have hlen : (start c).length = c.length := by
    cases c with
    | nil => rfl
    | cons q l =>
      unfold start; simp only []
      split
      · exact startEarlier_length _
      · rfl
  have hcub : ∀ p ∈ h :: rest, CubicPt p := by
    intro p hp; rw [← hs, hmem] at hp; exact hc p hp
  rw [hw, Out.bind_ok, contourOfGlif_fileFrom mid (hcub h List.mem_cons_self)]
  rw [cubicContour_fileFrom (hcub h List.mem_cons_self) (fun p hp => hcub p (List.mem_cons_of_mem _ hp)) _,
    ← hs, stored_eq]
  rintro ⟨rfl, hmv⟩
  have h1 : c.length = 1 := by rw [← hlen, hs]; rfl
  obtain ⟨p, rfl⟩ := List.length_eq_one_iff.1 h1
  have : h ∈ [p] := (hmem h).1 (by rw [hs]; exact List.mem_cons_self)
  rw [List.mem_singleton] at this
  exact hm p rfl (this ▸ hmv)

/-- The result read back, in words: same points in the same cyclic order with the same positions,
types, names and smooth flags. -/
theorem C03_same_points (c : Contour PD) :
    Rotated (c.map fun p => (p.x, p.y, p.ptype, p.name, p.smooth))
      ((stored c).map fun p => (p.x, p.y, p.ptype, p.name, p.smooth)) := by
  cases c with
  | nil => exact ⟨[], [], rfl, rfl⟩
  | cons p rest =>
    unfold stored; simp only []
    split
    · rw [← startEarlier_map, keptContour_map _ (fun a b => rfl)]
      exact startEarlier_rotated _
    · rw [keptContour_map _ (fun a b => rfl)]
      exact ⟨[], _, rfl, by simp⟩

/-- Every curve segment keeps its four control positions, in the same cyclic order. -/
theorem C03_same_curves (c : Contour PD) : Rotated (curveSegments c) (curveSegments (stored c)) := by
  cases c with
  | nil => exact ⟨[], [], rfl, rfl⟩
  | cons p rest =>
    unfold stored; simp only []
    split
    · have := curveSegments_startEarlier (keptContour (p :: rest))
      rwa [curveSegments_kept] at this
    · rw [curveSegments_kept]
      exact ⟨[], curveSegments (p :: rest), rfl, by simp⟩

/-- A closed contour with a curve start, a line and a handle-less curve point. -/
example : Cubic [Sample.cv 0 0 1 1 2 2, Sample.pt .line 3 3, Sample.pt .curve 1 1]
    ∧ (∀ p, [Sample.cv 0 0 1 1 2 2, Sample.pt .line 3 3, Sample.pt .curve 1 1] = [p] → p.ptype ≠ .move) := by
  simp [Cubic, Sample.pt, Sample.cv]

/-- The restriction is needed: a lone move point is written but dropped when read. -/
theorem C03_lone_move (mid : IOF → IOF → IOF) (p : Point PD) (h : p.ptype = .move) :
    (intoGlifpoints [p] >>= contourOfGlif (PD := PD) mid) = .ok [] := by
  have : intoGlifpoints [p] = .ok [on p] := by
    rw [intoGlifpoints_cycle (x := on p) (r := [])]
    · simp [h]
    · intro q hq hu
      rw [List.mem_singleton] at hq
      subst hq
      rw [h] at hu; cases hu <;> contradiction
    · simp [fileCycle, cyclicPairs, written, offsBefore, h]
  rw [this, Out.bind_ok]
  simp [contourOfGlif, h, cubicContour, foldR, cubicStep, modLast]

/-! ## C04 -/

/-- One save and load. -/
def trip (mid : IOF → IOF → IOF) (c : Contour PD) : R (Contour PD) := intoGlifpoints c >>= contourOfGlif mid

/-- `k` saves and loads. -/
def trips (mid : IOF → IOF → IOF) : Nat → Contour PD → R (Contour PD)
  | 0, c => .ok c
  | k + 1, c => trip mid c >>= trips mid k

theorem trip_allCurve (mid : IOF → IOF → IOF) {c : Contour PD} (h : AllCurve c) (hne : c ≠ []) :
    trip mid c = .ok (startEarlier (keptContour c)) := by
  unfold trip
  rw [C03_cubic_round_trip mid c (fun p hp => Or.inr (Or.inr (h p hp))) hne]
  · cases c with
    | nil => exact absurd rfl hne
    | cons p r => simp only [stored, h p List.mem_cons_self, if_true]
  · intro p e
    rw [h p (by rw [e]; exact List.mem_cons_self)]
    decide

/-- After `k ≥ 1` trips an all-curve contour of `n` points starts `k mod n` places earlier; apart
from the first trip's making every handle explicit (`keptContour`), nothing else changes. -/
theorem C04_drift (mid : IOF → IOF → IOF) (c : Contour PD) (h : AllCurve c) (hne : c ≠ []) (k : Nat) :
    trips mid (k + 1) c = .ok (startedBack ((k + 1) % c.length) (keptContour c)) := by
  have hlen : ∀ c : Contour PD, (startEarlier (keptContour c)).length = c.length := by
    intro c; rw [startEarlier_length, keptContour_length]
  have gen : ∀ k (d : Contour PD), AllCurve d → d ≠ [] →
      trips mid (k + 1) d = .ok (startEarlier^[k + 1] (keptContour d)) := by
    intro k
    induction k with
    | zero =>
      intro d hd hn
      show (trip mid d >>= trips mid 0) = _
      rw [trip_allCurve mid hd hn]; rfl
    | succ k ih =>
      intro d hd hn
      show (trip mid d >>= trips mid (k + 1)) = _
      rw [trip_allCurve mid hd hn, Out.bind_ok, ih _ (allCurve_startEarlier (allCurve_kept hd))]
      · rw [keptContour_startEarlier, keptContour_idem, ← Function.iterate_succ_apply]
      · intro e
        have := hlen d
        rw [e] at this
        exact hn (List.length_eq_zero_iff.1 this.symm)
  rw [gen k c h hne, startEarlier_pow, keptContour_length]
  intro e
  have := keptContour_length c
  rw [e] at this
  exact hne (List.length_eq_zero_iff.1 this.symm)

/-- After as many trips as there are points (or a multiple) the start point is back. -/
theorem C04_period (mid : IOF → IOF → IOF) (c : Contour PD) (h : AllCurve c) (hne : c ≠ []) (m : Nat)
    (hm : 0 < m) : trips mid (m * c.length) c = .ok (keptContour c) := by
  have hp : 0 < c.length := List.length_pos_iff.2 hne
  obtain ⟨k, hk⟩ : ∃ k, m * c.length = k + 1 := ⟨m * c.length - 1, by
    have := Nat.mul_pos hm hp; omega⟩
  rw [hk, C04_drift mid c h hne, ← hk, Nat.mul_mod_left, startedBack_zero]

/-- When all handles are explicit and there is no point data, nothing is changed at all. -/
theorem C04_kept_self (c : Contour PD) (h : AllCurve c)
    (hh : ∀ p ∈ c, p.a.isAt ∧ p.b.isAt ∧ p.data = none) : keptContour c = c := by
  cases c with
  | nil => rfl
  | cons p rest =>
    have : ∀ (l m : Contour PD), l.length = m.length → (∀ q ∈ l, q ∈ p :: rest) → (∀ q ∈ m, q ∈ p :: rest) →
        List.zipWith kept l m = l := by
      intro l
      induction l with
      | nil => intro m _ _ _; rfl
      | cons q l ih =>
        intro m hm h1 h2
        cases m with
        | nil => cases hm
        | cons r m =>
          rw [List.zipWith_cons_cons, ih m (by simpa using hm) (fun q hq => h1 q (List.mem_cons_of_mem _ hq))
            (fun q hq => h2 q (List.mem_cons_of_mem _ hq))]
          have hq := hh q (h1 q List.mem_cons_self)
          have hq' := h q (h1 q List.mem_cons_self)
          have hr := h r (h2 r List.mem_cons_self)
          congr 1
          obtain ⟨x, y, a, b, name, ptype, smooth, data⟩ := q
          simp only at hq hq'
          obtain ⟨ha, hb, hd⟩ := hq
          subst hd hq'
          cases a with
          | colocated => simp [Handle.isAt] at ha
          | «at» ax ay =>
            cases b with
            | colocated => simp [Handle.isAt] at hb
            | «at» bx by' => simp [kept, hr, outPos, inPos]
    exact this _ _ (by simp) (fun q hq => hq) (fun q hq => by
      rcases List.mem_append.1 hq with h | h
      · exact List.mem_cons_of_mem _ h
      · rw [List.mem_singleton] at h; subst h; exact List.mem_cons_self)

/-- An all-curve contour with explicit handles and three points. -/
example : AllCurve [Sample.cv 0 0 1 1 2 2, Sample.cv 3 0 1 1 2 2, Sample.cv 0 5 1 1 2 2]
    ∧ ∀ p ∈ [Sample.cv 0 0 1 1 2 2, Sample.cv 3 0 1 1 2 2, Sample.cv 0 5 1 1 2 2],
      p.a.isAt ∧ p.b.isAt ∧ p.data = none := by
  simp [AllCurve, Sample.cv, Handle.isAt]

end GP
