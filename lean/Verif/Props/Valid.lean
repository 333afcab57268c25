import Verif.Spec.Valid
import Verif.Props.Edit
import Verif.Props.PenOpsValid
import Verif.Props.Numbers
import Verif.Props.Accuracy
import Verif.Props.Sample
/-!
# Valid points stay valid (C139)
-/
open Fl
namespace GP
variable {PD D : Type}
open Spec

/-! ## Edits -/

theorem typeByHandles_ne (a b : Handle) : typeByHandles a b ≠ .undefined := by
  unfold typeByHandles
  split <;> simp

theorem refigured_type {c : Contour PD} {x : Point PD} (hx : x ∈ refigure c) :
    ∃ o ∈ c, ∃ t, t ≠ .undefined ∧ x = { settled o with ptype := t } := by
  rw [refigure_eq] at hx
  match c with
  | [] => cases hx
  | [p] => exact ⟨p, List.mem_cons_self .., _, by simp, List.mem_singleton.1 hx⟩
  | p :: q :: rest =>
    unfold refigured at hx
    rcases List.mem_cons.1 hx with rfl | hx
    · refine ⟨p, List.mem_cons_self .., ?_⟩
      by_cases hp : p.ptype = .move
      · rw [if_pos hp]; exact ⟨_, by simp, rfl⟩
      · rw [if_neg hp]; exact ⟨_, typeByHandles_ne _ _, rfl⟩
    · obtain ⟨o, ho, y, rfl⟩ := zipWith_mem_right hx
      exact ⟨o, List.mem_cons_of_mem _ ho, _, typeByHandles_ne _ _, rfl⟩

/-- What holds of every point of a contour, and is kept by what edits do to a point, holds of every point of the edited
contour. -/
theorem edited_forall {P : Point PD → Prop} (near : SmoothTest) {c d : Contour PD} {x : ContourEdit PD}
    (hswap : ∀ p, P p → P p.swapHandles) (htype : ∀ p t, t ≠ .undefined → P p → P { p with ptype := t })
    (hset : ∀ p, P p → P (settled p)) (hsmooth : ∀ p s, P p → P { p with smooth := s }) (hround : ∀ p, P p → P p.roundToInt)
    (hx : ∀ m, x ≠ .matrix m) (ha : ∀ a, x = .append a → ∀ p ∈ a, P p) (he : Edited near x c d) (h : ∀ p ∈ c, P p) : ∀ p ∈ d, P p := by
  cases he with
  | reverse hr =>
    cases c with
    | nil => exact nomatch hr
    | cons p rest =>
      by_cases hc : p.ptype ≠ .move ∨ rest = []
      · rw [toReversed_closed hc] at hr
        cases hr
        intro q hq
        rw [← List.map_cons (f := swapped)] at hq
        obtain ⟨o, ho, rfl⟩ := List.mem_map.1 hq
        exact hswap o (h o (by simpa using ho))
      · simp only [not_or, not_not] at hc
        obtain ⟨hp, hne⟩ := hc
        obtain ⟨mid, z, rfl⟩ := (List.eq_nil_or_concat rest).resolve_left hne
        rw [List.concat_eq_append, ← List.cons_append, toReversed_open hp] at hr
        cases hr
        intro q hq
        simp only [List.mem_cons, List.mem_append, List.mem_map, List.mem_reverse, List.not_mem_nil, or_false] at hq
        rcases hq with (rfl | ⟨o, ho, rfl⟩) | rfl
        · exact htype _ _ (by simp) (hswap z (h z (by simp)))
        · exact hswap o (h o (by simp [ho]))
        · exact htype _ _ (typeByHandles_ne _ _) (hswap p (h p (by simp)))
  | refigure =>
    intro p hp
    obtain ⟨o, ho, t, ht, rfl⟩ := refigured_type hp
    exact htype _ t ht (hset o (h o ho))
  | round =>
    intro p hp
    obtain ⟨o, ho, rfl⟩ := List.mem_map.1 hp
    exact hround o (h o ho)
  | matrix => exact absurd rfl (hx _)
  | @smooth _ _ i b hs =>
    unfold checkSmooth at hs
    cases e : isPointSmoothWithin near c i defaultTolerance with
    | ok s =>
      rw [e, Out.bind_ok] at hs
      cases hs
      intro p hp
      rcases mem_modify _ _ _ hp with hp | ⟨y, hy, rfl⟩
      · exact h p hp
      · exact hsmooth y _ (h y hy)
    | err e' => rw [e] at hs; cases hs
    | panic => rw [e] at hs; cases hs
  | setOpen hs =>
    match c with
    | [] => cases hs
    | p :: c =>
      cases hs
      intro q hq
      rcases List.mem_cons.1 hq with rfl | hq
      · exact htype p _ (by simp) (h p (List.mem_cons_self ..))
      · exact h q (List.mem_cons_of_mem _ hq)
  | setClosed hs =>
    match c with
    | [] => cases hs
    | p :: c =>
      cases hs
      intro q hq
      rcases List.mem_cons.1 hq with rfl | hq
      · exact htype p _ (by simp) (h p (List.mem_cons_self ..))
      · exact h q (List.mem_cons_of_mem _ hq)
  | reversePoints hs =>
    cases hs
    exact fun p hp => h p (by simpa using hp)
  | delete hs =>
    obtain ⟨r, h0, h1⟩ := fmap_ok.1 hs
    cases h1
    obtain ⟨_, rfl⟩ := remove_ok.1 h0
    exact fun p hp => h p (List.mem_of_mem_eraseIdx hp)
  | slice hs =>
    obtain ⟨r, h0, h1⟩ := fmap_ok.1 hs
    cases h1
    obtain ⟨_, _, rfl⟩ := slice_ok.1 h0
    exact fun p hp => h p (List.mem_of_mem_take (List.mem_of_mem_drop hp))
  | append hs =>
    cases hs
    exact fun p hp => (List.mem_append.1 hp).elim (h p) (ha _ rfl p)

/-! ## Numbers -/

theorem rounds_clean {x y : F32} (h : RoundsTo x y) : (x.isNaN = false → y.isNaN = false) ∧ (y.isSubnormal = false) := by
  unfold RoundsTo at h
  split at h
  · subst h; exact ⟨fun h => h, rfl⟩
  · rcases h with ⟨rfl, rfl⟩ | ⟨-, M, j, hj, -, rfl, hv, -, -⟩
    · exact ⟨fun _ => rfl, rfl⟩
    · refine ⟨fun _ => rfl, ?_⟩
      unfold Flt.isSubnormal
      by_contra hs
      simp only [Bool.not_eq_false, Bool.and_eq_true, decide_eq_true_eq] at hs
      unfold Fmt.val at hv
      rw [if_pos hs.2] at hv
      have h23 : 2 ^ (b32.p - 1) < 2 ^ 149 := by decide
      rcases Nat.eq_zero_or_pos M with rfl | hM
      · omega
      · have := Nat.le_mul_of_pos_left (2 ^ 149) hM
        omega

theorem int_clean (i : Int) : CleanNum (Flt.ofInt b32 i) := by
  obtain ⟨j, h, e, hn⟩ := ofInt_nearest (f := b32) (by decide) i
  rw [e]
  refine ⟨rfl, ?_⟩
  unfold Flt.isSubnormal
  by_contra hs
  simp only [Bool.not_eq_false, Bool.and_eq_true, decide_eq_true_eq] at hs
  have hv : b32.val j = j := by unfold Fmt.val; rw [if_pos hs.2]
  have h0 := hn.near 0 (Nat.zero_le _)
  have h1 := hn.near (127 * 2 ^ 23) (by decide)
  unfold away at h0 h1
  rw [hv, show b32.val 0 = 0 from rfl] at h0
  rw [hv, show b32.val (127 * 2 ^ 23) = 2 ^ 149 by decide +kernel] at h1
  have hu : b32.u = 149 := rfl
  have hp : 2 ^ (b32.p - 1) < 2 ^ 149 := by decide
  rw [hu] at h0 h1
  rcases Nat.eq_zero_or_pos i.natAbs with hi | hi
  · rw [hi] at h0; omega
  · have := Nat.le_mul_of_pos_left (2 ^ 149) hi
    omega

theorem iof_clean {x : IOF} (h : ∀ f, x = .float f → Sound f) : CleanNum x.toF32 := by
  cases x with
  | int i hi => exact int_clean i
  | float f => exact h f rfl

/-! ## C139 -/

theorem clean_round {p : Point PD} (h : Clean p) : Clean p.roundToInt :=
  ⟨⟨(rounds_clean (C55_rounds p.x)).1 h.x.1, (rounds_clean (C55_rounds p.x)).2⟩,
    ⟨(rounds_clean (C55_rounds p.y)).1 h.y.1, (rounds_clean (C55_rounds p.y)).2⟩, h.a, h.b⟩

theorem settle_at {p : Point PD} {h : Handle} {u v : F32} (e : settle h p = .at u v) : h = .at u v := by
  unfold settle at e
  split at e
  · cases e
  · exact e

theorem harmless_of {P : Contour PD → Prop} {x : ContourEdit PD} (h : Harmless P x) :
    (∀ m, x ≠ .matrix m) ∧ ∀ a, x = .append a → P a := by
  cases x <;> simp_all [Harmless]

/-- **C139**, exactly for edits without matrices: the points of an edited contour are valid if and only if those that are
added are. -/
theorem C139_exact (validData : PD → Bool) (near : SmoothTest) {c d : Contour PD} {x : ContourEdit PD} (h : AllValid validData c)
    (hx : ∀ m, x ≠ .matrix m) (he : Edited near x c d) : AllValid validData d ↔ Harmless (AllValid validData) x := by
  constructor
  · intro hd
    cases he with
    | append hs => cases hs; exact fun p hp => hd p (List.mem_append_right _ hp)
    | matrix => exact absurd rfl (hx _)
    | _ => trivial
  · intro hh
    refine edited_forall near (P := fun p => p.isValid validData = true) ?_ ?_ ?_ ?_ ?_ hx (harmless_of hh).2 he h
    · intro p hp
      rw [C54_point_iff] at hp ⊢
      exact ⟨hp.1, hp.2.1, hp.2.2.1, hp.2.2.2.1, fun x y e => hp.2.2.2.2 x y e.symm⟩
    · intro p t ht hp
      rw [C54_point_iff] at hp ⊢
      exact ⟨hp.1, ht, hp.2.2⟩
    · intro p hp
      rw [C54_point_iff] at hp ⊢
      exact ⟨hp.1, hp.2.1, hp.2.2.1, hp.2.2.2.1, fun x y e => hp.2.2.2.2 x y (e.imp settle_at settle_at)⟩
    · intro p s hp
      rw [C54_point_iff] at hp ⊢
      exact hp
    · intro p hp
      rw [C54_point_iff] at hp ⊢
      exact ⟨hp.1, hp.2.1, (rounds_clean (C55_rounds p.x)).1 hp.2.2.1, (rounds_clean (C55_rounds p.y)).2, hp.2.2.2.2⟩

/-- The same of coordinates that are clean. -/
theorem clean_edited (near : SmoothTest) {c d : Contour PD} {x : ContourEdit PD} (h : AllClean c) (hh : Harmless AllClean x)
    (he : Edited near x c d) : AllClean d := by
  refine edited_forall near (P := fun p => Clean p ∧ p.ptype ≠ .undefined) ?_ ?_ ?_ ?_ ?_ (harmless_of hh).1 (harmless_of hh).2 he h
  · exact fun p hp => ⟨⟨hp.1.x, hp.1.y, hp.1.b, hp.1.a⟩, hp.2⟩
  · exact fun p t ht hp => ⟨⟨hp.1.x, hp.1.y, hp.1.a, hp.1.b⟩, ht⟩
  · exact fun p hp => ⟨⟨hp.1.x, hp.1.y, fun u v e => hp.1.a u v (settle_at e), fun u v e => hp.1.b u v (settle_at e)⟩, hp.2⟩
  · exact fun p s hp => ⟨⟨hp.1.x, hp.1.y, hp.1.a, hp.1.b⟩, hp.2⟩
  · exact fun p hp => ⟨clean_round hp.1, hp.2⟩

/-- **C139**, what holds of edits: after any history of edits without matrices a contour of valid points is one, and one
with clean coordinates is one.  Missing: matrices, for which it is false (`C139_false`). -/
theorem C139_partial (validData : PD → Bool) (near : SmoothTest) {c d : Contour PD} :
    (AllValid validData c → EditedBy near (Harmless (AllValid validData)) c d → AllValid validData d) ∧
    (AllClean c → EditedBy near (Harmless AllClean) c d → AllClean d) := by
  constructor
  · intro h he
    induction he with
    | refl => exact h
    | step _ hx he ih => exact (C139_exact validData near ih (harmless_of hx).1 he).2 hx
  · intro h he
    induction he with
    | refl => exact h
    | step _ hx he ih => exact clean_edited near ih hx he

theorem valid_of_clean (validData : PD → Bool) {p : Point PD} (h : Clean p) (ht : p.ptype ≠ .undefined)
    (hd : ∀ d, p.data = some d → validData d = true) : p.isValid validData = true := by
  rw [C54_point_iff]
  refine ⟨hd, ht, h.x.1, h.y.2, ?_⟩
  rintro x y (e | e)
  · exact ⟨(h.a x y e).1.1, (h.a x y e).2.2⟩
  · exact ⟨(h.b x y e).1.1, (h.b x y e).2.2⟩

theorem mem_cyclicPairs_fst {α : Type} {l : List α} {x : α × α} (h : x ∈ cyclicPairs l) : x.1 ∈ l := by
  unfold cyclicPairs at h
  split at h
  · rename_i z hz
    have := (List.of_mem_zip h).1
    rcases List.mem_cons.1 this with e | e
    · rw [e]; exact List.mem_of_getLast? hz
    · exact e
  · cases h

theorem off_valid (q : F32 × F32) : (off q).isValid = true ↔ CleanNum q.1 ∧ CleanNum q.2 := by
  rw [C54_file_point_iff]
  simp only [off, IOF.float.injEq]
  exact ⟨fun h => ⟨h.2.1 _ rfl, h.2.2 _ rfl⟩, fun h => ⟨by simp, fun f e => e ▸ h.1, fun f e => e ▸ h.2⟩⟩

theorem on_valid (p : Point PD) : (on p).isValid = true ↔ p.ptype ≠ .undefined ∧ CleanNum p.x ∧ CleanNum p.y := by
  rw [C54_file_point_iff]
  simp only [on, IOF.float.injEq]
  exact ⟨fun h => ⟨h.1, h.2.1 _ rfl, h.2.2 _ rfl⟩, fun h => ⟨h.1, fun f e => e ▸ h.2.1, fun f e => e ▸ h.2.2⟩⟩

theorem written_mem {c : Contour PD} {r : GlifContour} (hr : intoGlifpoints c = .ok r) (g : GlifPoint) : g ∈ r ↔ g ∈ fileCycle c := by
  have hw : ∀ p ∈ c, ¬ unwritable p.ptype := by
    intro p hp hu
    rw [intoGlifpoints_unwritable ⟨p, hp, hu⟩] at hr
    cases hr
  cases e : fileCycle c with
  | nil =>
    have hc : c ≠ [] := by rintro rfl; cases hr
    rw [intoGlifpoints_eq hw hc, e] at hr
    cases hr
  | cons x l =>
    rw [intoGlifpoints_cycle hw e] at hr
    cases hr
    split
    · exact mem_startEarlier
    · exact Iff.rfl

/-- **C139**, exactly: a contour is written as valid points of a file if and only if the coordinates of its points on the
curve, and the places of the handles along its curves, are clean. -/
theorem C139_written_exact {c : Contour PD} {r : GlifContour} (hr : intoGlifpoints c = .ok r) :
    (∀ g ∈ r, g.isValid = true) ↔ ∀ x ∈ cyclicPairs c, x.2.ptype ≠ .offcurve → WrittenClean x.1 x.2 := by
  have hw : ∀ p ∈ c, ¬ unwritable p.ptype := by
    intro p hp hu
    rw [intoGlifpoints_unwritable ⟨p, hp, hu⟩] at hr
    cases hr
  have hu : ∀ x ∈ cyclicPairs c, x.2.ptype ≠ .undefined := by
    intro x hx e
    have hp : x.2 ∈ c := by rw [← mem_cyclicPairs_snd c]; exact List.mem_map_of_mem hx
    exact hw _ hp (Or.inl e)
  simp only [written_mem hr, fileCycle, List.mem_flatMap]
  constructor
  · intro h x hx ht
    have hg : ∀ g ∈ offsBefore x.1 x.2 ++ [on x.2], g.isValid = true := by
      intro g hg
      exact h g ⟨x, hx, by simp only [written]; rw [if_neg ht]; exact hg⟩
    refine ⟨((on_valid _).1 (hg _ (by simp))).2, fun e => ?_, fun e => ?_⟩
    · unfold offsBefore at hg
      rw [e] at hg
      exact ⟨(off_valid _).1 (hg _ (by simp)), (off_valid _).1 (hg _ (by simp))⟩
    · unfold offsBefore at hg
      rw [e] at hg
      exact (off_valid _).1 (hg _ (by simp))
  · rintro h g ⟨x, hx, hg⟩
    simp only [written] at hg
    split at hg
    · cases hg
    · rename_i ht
      have hh := h x hx ht
      rcases List.mem_append.1 hg with hg | hg
      · unfold offsBefore at hg
        split at hg
        · rename_i e
          rcases List.mem_cons.1 hg with rfl | hg
          · exact (off_valid _).2 (hh.2.1 e).1
          · rw [List.mem_singleton.1 hg]; exact (off_valid _).2 (hh.2.1 e).2
        · rename_i e
          rw [List.mem_singleton.1 hg]; exact (off_valid _).2 (hh.2.2 e)
        · cases hg
      · rw [List.mem_singleton.1 hg]
        exact (on_valid _).2 ⟨hu x hx, hh.1⟩

theorem clean_out {p : Point PD} (h : Clean p) : CleanNum (outPos p).1 ∧ CleanNum (outPos p).2 := by
  unfold outPos
  split
  · rename_i u v e; exact h.a u v e
  · exact ⟨h.x, h.y⟩

theorem clean_in {p : Point PD} (h : Clean p) : CleanNum (inPos p).1 ∧ CleanNum (inPos p).2 := by
  unfold inPos
  split
  · rename_i u v e; exact h.b u v e
  · exact ⟨h.x, h.y⟩

/-- **C139**: a contour with clean coordinates is written as valid points of a file. -/
theorem C139_written {c : Contour PD} {r : GlifContour} (h : AllClean c) (hr : intoGlifpoints c = .ok r) : ∀ g ∈ r, g.isValid = true := by
  refine (C139_written_exact hr).2 fun x hx _ => ?_
  have hp : x.2 ∈ c := by rw [← mem_cyclicPairs_snd c]; exact List.mem_map_of_mem hx
  have hq : x.1 ∈ c := mem_cyclicPairs_fst hx
  exact ⟨⟨(h _ hp).1.x, (h _ hp).1.y⟩, fun _ => ⟨clean_out (h _ hq).1, clean_in (h _ hp).1⟩, fun _ => clean_in (h _ hp).1⟩

/-! ### Reading -/

theorem modLast_forall {α : Type} {P : α → Prop} {f : α → α} (hf : ∀ a, P a → P (f a)) {l : List α} (h : ∀ a ∈ l, P a) :
    ∀ a ∈ modLast f l, P a := by
  induction l with
  | nil => exact h
  | cons a l ih =>
    cases l with
    | nil =>
      intro b hb
      rw [List.mem_singleton.1 hb]
      exact hf a (h a (List.mem_cons_self ..))
    | cons b l =>
      intro x hx
      rcases List.mem_cons.1 hx with rfl | hx
      · exact h _ (List.mem_cons_self ..)
      · exact ih (fun a ha => h a (List.mem_cons_of_mem _ ha)) x hx

theorem clean_gp {g : GlifPoint} (h : g.isValid = true) : CleanNum g.x.toF32 ∧ CleanNum g.y.toF32 := by
  rw [C54_file_point_iff] at h
  exact ⟨iof_clean h.2.1, iof_clean h.2.2⟩

theorem clean_handle {o : Option GlifPoint} (h : ∀ g, o = some g → g.isValid = true) {u v : F32} (e : Handle.ofGlifPoint o = .at u v) :
    CleanNum u ∧ CleanNum v := by
  cases o with
  | none => cases e
  | some g => cases e; exact clean_gp (h g rfl)

theorem clean_foldR (gc : List GlifPoint) (hg : ∀ g ∈ gc, g.isValid = true) : ∀ (st st' : Contour PD × List GlifPoint),
    (∀ p ∈ st.1, Clean p ∧ p.ptype ≠ .undefined ∧ p.data = none) → (∀ g ∈ st.2, g.isValid = true) → foldR cubicStep st gc = .ok st' →
    (∀ p ∈ st'.1, Clean p ∧ p.ptype ≠ .undefined ∧ p.data = none) ∧ ∀ g ∈ st'.2, g.isValid = true := by
  induction gc with
  | nil => intro st st' h1 h2 e; cases e; exact ⟨h1, h2⟩
  | cons g gc ih =>
    intro st st' h1 h2 e
    have hh1 : ∀ g, st.2.head? = some g → g.isValid = true := fun g hg => h2 g (List.mem_of_mem_head? hg)
    have hh2 : ∀ g, st.2.tail.head? = some g → g.isValid = true := fun g hg => h2 g (List.mem_of_mem_tail (List.mem_of_mem_head? hg))
    have hgv := hg g (List.mem_cons_self ..)
    have ih := ih fun g h => hg g (List.mem_cons_of_mem _ h)
    simp only [foldR] at e
    have key : ∀ t, t ≠ .undefined → ∀ p ∈ modLast (fun p : Point PD => { p with a := Handle.ofGlifPoint st.2.head? }) st.1 ++
        [{ x := g.x.toF32, y := g.y.toF32, a := Handle.ofGlifPoint st.2.head?, b := Handle.ofGlifPoint st.2.tail.head?,
           smooth := g.smooth, name := g.name, ptype := t }], Clean p ∧ p.ptype ≠ .undefined ∧ p.data = none := by
      intro t ht p hp
      rcases List.mem_append.1 hp with hp | hp
      · refine modLast_forall (P := fun p : Point PD => Clean p ∧ p.ptype ≠ .undefined ∧ p.data = none) ?_ h1 p hp
        exact fun a ha => ⟨⟨ha.1.x, ha.1.y, fun u v e => clean_handle hh1 e, ha.1.b⟩, ha.2⟩
      · rw [List.mem_singleton.1 hp]
        exact ⟨⟨(clean_gp hgv).1, (clean_gp hgv).2, fun u v e => clean_handle hh1 e, fun u v e => clean_handle hh2 e⟩, ht, rfl⟩
    obtain ⟨st1, h3, e⟩ := bind_eq_ok.1 e
    have next : (∀ p ∈ st1.1, Clean p ∧ p.ptype ≠ .undefined ∧ p.data = none) ∧ ∀ g ∈ st1.2, g.isValid = true := by
      unfold cubicStep at h3
      split at h3
      · cases h3
        refine ⟨h1, fun x hx => ?_⟩
        rcases List.mem_append.1 hx with hx | hx
        · exact h2 x hx
        · rw [List.mem_singleton.1 hx]; exact hgv
      · rename_i ht
        cases h3
        exact ⟨key _ (by rw [ht]; simp), fun x hx => h2 x (List.mem_of_mem_tail (List.mem_of_mem_tail hx))⟩
      · rename_i ht
        cases h3
        exact ⟨key _ (by rw [ht]; simp), fun x hx => h2 x (List.mem_of_mem_tail (List.mem_of_mem_tail hx))⟩
      · rename_i ht
        cases h3
        exact ⟨key _ (by rw [ht]; simp), fun x hx => h2 x (List.mem_of_mem_tail (List.mem_of_mem_tail hx))⟩
      · cases h3
      · cases h3; exact ⟨h1, h2⟩
    exact ih _ _ next.1 next.2 e

/-- **C139**: a contour of lines and cubic curves is read from valid points of a file as valid points with clean
coordinates. -/
theorem C139_read (validData : PD → Bool) (mid : IOF → IOF → IOF) {g : GlifPoint} {gc : List GlifPoint} {c : Contour PD}
    (h : ∀ x ∈ g :: gc, x.isValid = true) (ht : g.ptype ≠ .qcurve ∧ g.ptype ≠ .qclose) (hc : contourOfGlif mid (g :: gc) = .ok c) :
    AllClean c ∧ AllValid validData c := by
  have key : ∀ p ∈ c, Clean p ∧ p.ptype ≠ .undefined ∧ p.data = none := by
    have hcub : ∀ c, cubicContour (PD := PD) (g :: gc) = .ok c → ∀ p ∈ c, Clean p ∧ p.ptype ≠ .undefined ∧ p.data = none := by
      intro c hc
      unfold cubicContour at hc
      obtain ⟨⟨k, s⟩, hf, hc⟩ := bind_eq_ok.1 hc
      obtain ⟨hk, hs⟩ := clean_foldR (g :: gc) h ([], []) (k, s) (by simp) (by simp) hf
      simp only at hc hk hs
      have hh1 : ∀ g, s.head? = some g → g.isValid = true := fun g hg => hs g (List.mem_of_mem_head? hg)
      have hh2 : ∀ g, s.tail.head? = some g → g.isValid = true := fun g hg => hs g (List.mem_of_mem_tail (List.mem_of_mem_head? hg))
      have hm := modLast_forall (P := fun p : Point PD => Clean p ∧ p.ptype ≠ .undefined ∧ p.data = none)
        (f := fun p : Point PD => { p with a := Handle.ofGlifPoint s.head? })
        (fun a ha => ⟨⟨ha.1.x, ha.1.y, fun u v e => clean_handle hh1 e, ha.1.b⟩, ha.2⟩) hk
      generalize modLast (fun p : Point PD => { p with a := Handle.ofGlifPoint s.head? }) k = k' at hc hm
      have hlast : ∀ k c : Contour PD, (∀ p ∈ k, Clean p ∧ p.ptype ≠ .undefined ∧ p.data = none) →
          (match k with
            | [p] => if p.ptype = .move then Out.ok [] else Out.ok [p]
            | c => Out.ok c : R (Contour PD)) = .ok c → ∀ p ∈ c, Clean p ∧ p.ptype ≠ .undefined ∧ p.data = none := by
        intro k c hk hc
        split at hc
        · split at hc
          · cases hc; simp
          · cases hc; exact hk
        · cases hc; exact hk
      cases k' with
      | nil => cases hc; simp
      | cons q k' =>
        simp only at hc
        have hq := hm q (List.mem_cons_self ..)
        by_cases hqm : q.ptype ≠ .move
        · rw [if_pos hqm] at hc
          refine hlast _ c ?_ hc
          intro p hp
          rcases List.mem_cons.1 hp with rfl | hp
          · exact ⟨⟨hq.1.x, hq.1.y, hq.1.a, fun u v e => clean_handle hh2 e⟩, hq.2⟩
          · exact hm p (List.mem_cons_of_mem _ hp)
        · rw [if_neg hqm] at hc
          exact hlast _ c hm hc
    unfold contourOfGlif at hc
    simp only at hc
    split at hc
    · exact hcub c hc
    · exact hcub c hc
    · exact hcub c hc
    · rename_i e; exact absurd e ht.1
    · rename_i e; exact absurd e ht.2
    · cases hc; simp
  exact ⟨fun p hp => ⟨(key p hp).1, (key p hp).2.1⟩, fun p hp => valid_of_clean validData (key p hp).1 (key p hp).2.1 (by simp [(key p hp).2.2])⟩

theorem written_type {c : Contour PD} (hc : Cubic c) {g : GlifPoint} (hg : g ∈ fileCycle c) : g.ptype ≠ .qcurve ∧ g.ptype ≠ .qclose := by
  obtain ⟨x, hx, hg⟩ := List.mem_flatMap.1 hg
  have hp : x.2 ∈ c := by rw [← mem_cyclicPairs_snd c]; exact List.mem_map_of_mem hx
  simp only [written] at hg
  split at hg
  · cases hg
  · rcases List.mem_append.1 hg with hg | hg
    · have : g.ptype = .offcurve := by
        unfold offsBefore at hg
        split at hg
        · rcases List.mem_cons.1 hg with rfl | hg
          · rfl
          · rw [List.mem_singleton.1 hg]; rfl
        · rw [List.mem_singleton.1 hg]; rfl
        · cases hg
      simp [this]
    · rw [List.mem_singleton.1 hg]
      simp only [on]
      rcases hc _ hp with e | e | e <;> simp [e]

/-- **C139**: saved and read again, a contour of lines and curves with clean coordinates consists of valid points. -/
theorem C139_saved (validData : PD → Bool) (mid : IOF → IOF → IOF) {c : Contour PD} (h : AllClean c) (hc : Cubic c) (hn : c ≠ []) :
    ∃ r c', intoGlifpoints c = .ok r ∧ contourOfGlif (PD := PD) mid r = .ok c' ∧ AllClean c' ∧ AllValid validData c' := by
  have hs : ∃ c', (intoGlifpoints c >>= contourOfGlif (PD := PD) mid) = .ok c' := by
    by_cases hm : ∀ p, c = [p] → p.ptype ≠ .move
    · exact ⟨_, C03_cubic_round_trip mid c hc hn hm⟩
    · simp only [not_forall, Decidable.not_not] at hm
      obtain ⟨p, rfl, hp⟩ := hm
      exact ⟨_, C03_lone_move mid p hp⟩
  obtain ⟨c', hs⟩ := hs
  obtain ⟨r, hr, hs⟩ := bind_eq_ok.1 hs
  refine ⟨r, c', hr, hs, ?_⟩
  cases r with
  | nil => cases hs
  | cons g gc =>
    exact C139_read validData mid (C139_written h hr) (written_type hc ((written_mem hr g).1 (List.mem_cons_self ..))) hs

/-- A contour that meets the hypotheses: a line and a curve. -/
theorem clean_sample : AllClean [Sample.pt .line 0 0, Sample.cv 10 10 12 12 8 8] := by
  intro p hp
  simp only [List.mem_cons, List.not_mem_nil, or_false] at hp
  rcases hp with rfl | rfl
  · exact ⟨⟨int_clean _, int_clean _, fun _ _ e => (nomatch e), fun _ _ e => (nomatch e)⟩, by decide⟩
  · refine ⟨⟨int_clean _, int_clean _, ?_, ?_⟩, by decide⟩
    · intro u v e
      simp only [Sample.cv, Handle.at.injEq] at e
      rw [← e.1, ← e.2]; exact ⟨int_clean _, int_clean _⟩
    · intro u v e
      simp only [Sample.cv, Handle.at.injEq] at e
      rw [← e.1, ← e.2]; exact ⟨int_clean _, int_clean _⟩

example : ∃ r c', intoGlifpoints [Sample.pt .line 0 0, Sample.cv 10 10 12 12 8 8] = .ok r ∧
    contourOfGlif (PD := Unit) (fun a _ => a) r = .ok c' ∧ AllClean c' ∧ AllValid (fun _ => true) c' :=
  C139_saved _ _ clean_sample (by intro p hp; simp only [List.mem_cons, List.not_mem_nil, or_false] at hp; rcases hp with rfl | rfl <;> simp [Sample.pt, Sample.cv]) (by simp)

/-- Reversed, rounded and appended to itself, it is still clean. -/
example (near : SmoothTest) : ∃ d e, EditedBy near (Harmless AllClean) [Sample.pt .line 0 0, Sample.cv 10 10 12 12 8 8] d ∧
    Edited near (.append [Sample.pt .line 0 0, Sample.cv 10 10 12 12 8 8]) d e ∧ AllClean e := by
  refine ⟨_, _, .step (.step .refl (x := .reverse) trivial (.reverse rfl)) (x := .round) trivial .round, .append rfl, ?_⟩
  exact (C139_partial (fun _ => true) near).2 clean_sample
    (.step (.step (.step .refl (x := .reverse) trivial (.reverse rfl)) (x := .round) trivial .round) (x := .append _) clean_sample (.append rfl))

/-! ## Transformations -/

theorem small_of_subnormal {x : F32} (h : x.isSubnormal = true) : |x.toRat| < 1 / 2 ^ 126 := by
  cases x with
  | nan => cases h
  | num s k hk =>
    rw [abs_toRat_num]
    simp only [Flt.isSubnormal, Bool.and_eq_true, decide_eq_true_eq] at h
    have hv : b32.val k = k := by unfold Fmt.val; rw [if_pos h.2]
    rw [hv, div_lt_div_iff₀ (by decide +kernel) (by decide +kernel), one_mul]
    have h1 : k < 2 ^ 23 := h.2
    have h2 : (2 : ℚ) ^ b32.u = 2 ^ 23 * 2 ^ 126 := by decide +kernel
    rw [h2]
    have h3 : (k : ℚ) < 2 ^ 23 := by exact_mod_cast h1
    exact (mul_lt_mul_iff_left₀ (by decide +kernel)).2 h3

theorem nan_of_finite {x : F32} (h : x.isFinite = true) : x.isNaN = false := by
  cases x with
  | nan => cases h
  | num s k hk => rfl

theorem not_subnormal {v r : ℚ} {y : F32} (h : Near y v r) (hv : 1 / 2 ^ 126 + r ≤ |v|) : y.isSubnormal = false := by
  by_contra e
  rw [Bool.not_eq_false] at e
  have h1 := small_of_subnormal e
  have h2 : |v| ≤ |y.toRat| + |y.toRat - v| := by
    have := abs_sub_abs_le_abs_sub v y.toRat
    rw [abs_sub_comm] at this
    linarith
  have := h.2
  linarith

theorem valid_image {A : Affine} {h h' : Handle} (hi : HandleImage A h h') (ho : OffAxisHandle A h) {x y : F32} (e : h' = .at x y) :
    x.isNaN = false ∧ y.isSubnormal = false := by
  subst e
  cases h with
  | colocated => exact hi.elim
  | «at» u v => exact ⟨nan_of_finite hi.1.1, not_subnormal hi.2 ho⟩

/-- **C139**: a valid point with finite coordinates that is transformed by a matrix with finite coefficients is valid, if
the numbers added up are of a size that can be held, and the exact second coordinates are not so small that the computed
ones may be subnormal. -/
theorem C139_matrix (validData : PD → Bool) (A : Affine) (p : Point PD) (hA : FiniteMap A) (hp : FinitePoint p) (hv : p.isValid validData = true)
    (h : Fitting A p.x p.y) (ha : FittingHandle A p.a) (hb : FittingHandle A p.b)
    (ho : OffAxis A p.x p.y) (hoa : OffAxisHandle A p.a) (hob : OffAxisHandle A p.b) : (p.applyMatrix A).isValid validData = true := by
  obtain ⟨h1, h2, h3⟩ := C91_accurate A p hA hp h ha hb
  rw [C54_point_iff] at hv ⊢
  refine ⟨hv.1, hv.2.1, nan_of_finite h1.1.1, not_subnormal h1.2 ho, fun x y e => ?_⟩
  rcases e with e | e
  · exact valid_image h2 hoa e
  · exact valid_image h3 hob e

/-- A point and a matrix that meet the hypotheses of `C139_matrix`: moved up by one unit. -/
example : ((Sample.cv 10 10 12 12 8 8).applyMatrix { a := Flt.ofInt b64 1, b := Flt.ofInt b64 0, c := Flt.ofInt b64 0, d := Flt.ofInt b64 1, e := Flt.ofInt b64 0, f := Flt.ofInt b64 1 }).isValid (fun _ => true) = true := by
  refine C139_matrix _ _ _ ⟨?_, ?_, ?_, ?_, ?_, ?_⟩ ⟨?_, ?_, ?_, ?_⟩ ?_ ?_ ?_ ?_ ?_ ?_ ?_
  all_goals first | decide +kernel | exact ⟨by decide +kernel, by decide +kernel⟩ | (show (_ : ℚ) ≤ _; decide +kernel)

/-- **C139 is false of the code**: a matrix makes a valid point with finite coordinates an invalid one; and a contour of
valid points is written as a file with an invalid point. -/
theorem C139_false :
    (∃ (A : Affine) (p : Point Unit), FiniteMap A ∧ FinitePoint p ∧ p.isValid (fun _ => true) = true ∧
      (p.applyMatrix A).isValid (fun _ => true) = false) ∧
    ∃ (c : Contour Unit) (r : GlifContour), AllValid (fun _ => true) c ∧ intoGlifpoints c = .ok r ∧ ∃ g ∈ r, g.isValid = false := by
  refine ⟨⟨{ a := Flt.ofInt b64 1, b := Flt.ofInt b64 0, c := Flt.ofInt b64 0, d := .num false (893 * 2 ^ 52) (by decide), e := Flt.ofInt b64 0, f := Flt.ofInt b64 0 },
    { x := Flt.ofInt b32 1, y := Flt.ofInt b32 1, ptype := .line }, ⟨by decide +kernel, by decide +kernel, by decide +kernel, by decide +kernel, by decide +kernel, by decide +kernel⟩, ⟨by decide +kernel, by decide +kernel, trivial, trivial⟩, by decide +kernel, by decide +kernel⟩, ?_⟩
  exact ⟨[{ x := Flt.ofInt b32 1, y := .nan, ptype := .line }], [on { x := Flt.ofInt b32 1, y := .nan, ptype := .line }], fun p hp => by rw [List.mem_singleton.1 hp]; decide +kernel, rfl, _, List.mem_singleton.2 rfl, by decide +kernel⟩

end GP
