import Verif.Model.Outline
import Verif.Spec.ContourIO
/-! Helper lemmas for writing and reading contours. -/
open Fl
namespace GP
variable {PD : Type}

open Spec (off on offsBefore written fileCycle cyclicPairs outPos inPos)

theorem fromHandle_A (p : Point PD) : GlifPoint.fromHandle p .A = off (outPos p) := by
  unfold GlifPoint.fromHandle Point.handleOrColocated Point.handle outPos GlifPoint.fromXYType off IOF.ofF32
  cases p.a <;> rfl

theorem fromHandle_B (p : Point PD) : GlifPoint.fromHandle p .B = off (inPos p) := by
  unfold GlifPoint.fromHandle Point.handleOrColocated Point.handle inPos GlifPoint.fromXYType off IOF.ofF32
  cases p.b <;> rfl

theorem ofPoint_on (p : Point PD) : GlifPoint.ofPoint p = on p := rfl

@[simp] theorem off_ptype (xy) : (off xy).ptype = .offcurve := rfl
@[simp] theorem on_ptype (p : Point PD) : (on p).ptype = p.ptype := rfl

abbrev Tri := GlifPoint × GlifPoint × GlifPoint

def flatT (T : List Tri) : List GlifPoint := T.flatMap fun t => [t.1, t.2.1, t.2.2]

theorem interleave_zip (ns ps os : List GlifPoint) :
    interleave ns ps os = flatT (ns.zip (ps.zip os)) := by
  induction ns generalizing ps os with
  | nil => cases ps <;> simp [interleave, flatT]
  | cons n ns ih =>
    cases ps with
    | nil => simp [interleave, flatT]
    | cons p ps =>
      cases os with
      | nil => simp [interleave, flatT]
      | cons o os => simp [interleave, ih, flatT]

def keepList (i : Nat) (pt : PointType) : List Int :=
  match pt with
  | .move => [(i : Int)]
  | .line => [(i : Int)]
  | .qcurve => [(i : Int) - 1, (i : Int)]
  | .curve => [(i : Int) - 2, (i : Int) - 1, (i : Int)]
  | _ => []

def unwritable (t : PointType) : Prop := t = .undefined ∨ t = .qclose

instance (t : PointType) : Decidable (unwritable t) := by unfold unwritable; infer_instance

theorem mapM'_panic {ε α β : Type} {f : α → Out ε β} {l : List α} {a : α} (ha : a ∈ l)
    (hp : f a = .panic) (hne : ∀ b ∈ l, ∀ e, f b ≠ .err e) : Out.mapM' f l = .panic := by
  induction l with
  | nil => cases ha
  | cons b l ih =>
    rw [Out.mapM'_cons]
    rcases List.mem_cons.1 ha with rfl | ha
    · rw [hp]; rfl
    · match hb : f b with
      | .panic => rfl
      | .err e => exact absurd hb (hne b List.mem_cons_self e)
      | .ok x => simp [ih ha (fun b hb => hne b (List.mem_cons_of_mem _ hb))]

theorem keepFor_ne_err (i pt e) : keepFor i pt ≠ .err e := by cases pt <;> simp [keepFor]

theorem keepFor_eq {i pt} (h1 : ¬ unwritable pt) (h2 : pt ≠ .offcurve) :
    keepFor i pt = .ok (keepList i pt) := by
  cases pt <;> simp_all [keepFor, keepList, unwritable]

/-- Is the file point at an index kept? -/
def kept? (l : List GlifPoint) (j : Nat) : Prop :=
  ∃ i gp, l[i]? = some gp ∧ gp.ptype ≠ .offcurve ∧ (j : Int) ∈ keepList i gp.ptype

theorem mem_types (l : List GlifPoint) (i : Nat) (pt : PointType) :
    (i, pt) ∈ (l.zipIdx.filterMap fun (x : GlifPoint × Nat) =>
      if x.1.ptype ≠ .offcurve then some (x.2, x.1.ptype) else none) ↔
    ∃ gp, l[i]? = some gp ∧ gp.ptype ≠ .offcurve ∧ gp.ptype = pt := by
  rw [List.mem_filterMap]
  constructor
  · rintro ⟨⟨gp, k⟩, hm, h⟩
    rw [List.mem_zipIdx_iff_getElem?] at hm
    split at h
    · cases h
      exact ⟨gp, hm, by assumption, rfl⟩
    · cases h
  · rintro ⟨gp, hm, h1, rfl⟩
    exact ⟨(gp, i), by rw [List.mem_zipIdx_iff_getElem?]; exact hm, by simp [h1]⟩

open Classical in
theorem cleanup_ok {l : List GlifPoint} (h : ∀ gp ∈ l, ¬ unwritable gp.ptype) :
    cleanupOffcurves l = .ok ((l.zipIdx.filter fun x => decide (kept? l x.2)).map Prod.fst) := by
  unfold cleanupOffcurves
  simp only []
  rw [Out.mapM'_ok (g := fun x => keepList x.1 x.2)]
  · simp only [Out.bind_ok]
    congr 2
    apply List.filter_congr
    rintro ⟨gp, j⟩ -
    simp only []
    rw [Bool.eq_iff_iff, List.contains_iff_mem, decide_eq_true_iff, List.mem_filterMap]
    constructor
    · rintro ⟨z, hz, hj⟩
      obtain ⟨ks, hks, hz⟩ := List.mem_flatten.1 hz
      obtain ⟨⟨i, pt⟩, hm, rfl⟩ := List.mem_map.1 hks
      obtain ⟨gp', h1, h2, rfl⟩ := (mem_types l i pt).1 hm
      split at hj
      · cases hj
        refine ⟨i, gp', h1, h2, ?_⟩
        rw [Int.toNat_of_nonneg (by assumption)]
        exact hz
      · cases hj
    · rintro ⟨i, gp', h1, h2, h3⟩
      refine ⟨(j : Int), List.mem_flatten.2 ⟨keepList i gp'.ptype,
        List.mem_map.2 ⟨(i, gp'.ptype), ?_, rfl⟩, h3⟩, ?_⟩
      · exact (mem_types l i gp'.ptype).2 ⟨gp', h1, h2, rfl⟩
      · simp
  · rintro ⟨i, pt⟩ hm
    obtain ⟨gp', h1, h2, rfl⟩ := (mem_types l i pt).1 hm
    exact keepFor_eq (h gp' (List.mem_of_getElem? h1)) h2

theorem cleanup_panic {l : List GlifPoint} (h : ∃ gp ∈ l, unwritable gp.ptype) :
    cleanupOffcurves l = .panic := by
  obtain ⟨gp, hm, hu⟩ := h
  obtain ⟨i, hi⟩ := List.getElem?_of_mem hm
  unfold cleanupOffcurves
  simp only []
  rw [mapM'_panic (a := (i, gp.ptype))]
  · rfl
  · exact (mem_types l i gp.ptype).2 ⟨gp, hi, by rcases hu with h | h <;> simp [h], rfl⟩
  · rcases hu with h | h <;> simp [h, keepFor]
  · rintro ⟨i, pt⟩ _ e; exact keepFor_ne_err i pt e

theorem flatT_get (T : List Tri) (i : Nat) :
    (flatT T)[3 * i]? = T[i]?.map (·.1) ∧ (flatT T)[3 * i + 1]? = T[i]?.map (·.2.1) ∧
    (flatT T)[3 * i + 2]? = T[i]?.map (·.2.2) := by
  induction T generalizing i with
  | nil => simp [flatT]
  | cons t T ih =>
    cases i with
    | zero => simp [flatT]
    | succ i =>
      have h0 : 3 * (i + 1) = 3 * i + 1 + 1 + 1 := by omega
      have h1 : 3 * (i + 1) + 1 = 3 * i + 1 + 1 + 1 + 1 := by omega
      have h2 : 3 * (i + 1) + 2 = 3 * i + 2 + 1 + 1 + 1 := by omega
      have e : flatT (t :: T) = t.1 :: t.2.1 :: t.2.2 :: flatT T := rfl
      rw [h1, h2, h0, e]
      simpa using ih i

/-- on-curve points sit only at indices `3 i + 2` -/
theorem flatT_on {T : List Tri} (hT : ∀ t ∈ T, t.1.ptype = .offcurve ∧ t.2.1.ptype = .offcurve)
    {k : Nat} {gp : GlifPoint} (h : (flatT T)[k]? = some gp) (ho : gp.ptype ≠ .offcurve) :
    ∃ i t, k = 3 * i + 2 ∧ T[i]? = some t ∧ t.2.2 = gp := by
  obtain ⟨h0, h1, h2⟩ := flatT_get T (k / 3)
  have hk := Nat.div_add_mod k 3
  have hm := Nat.mod_lt k (show 0 < 3 by decide)
  match hr : k % 3, hm with
  | 0, _ =>
    rw [hr] at hk
    rw [Nat.add_zero] at hk
    rw [hk] at h0
    rw [h] at h0
    match ht : T[k / 3]? with
    | none => rw [ht] at h0; cases h0
    | some t =>
      rw [ht] at h0
      cases h0
      exact absurd (hT t (List.mem_of_getElem? ht)).1 ho
  | 1, _ =>
    rw [hr] at hk
    rw [hk] at h1
    rw [h] at h1
    match ht : T[k / 3]? with
    | none => rw [ht] at h1; cases h1
    | some t =>
      rw [ht] at h1
      cases h1
      exact absurd (hT t (List.mem_of_getElem? ht)).2 ho
  | 2, _ =>
    rw [hr] at hk
    rw [hk] at h2
    rw [h] at h2
    match ht : T[k / 3]? with
    | none => rw [ht] at h2; cases h2
    | some t =>
      rw [ht] at h2
      cases h2
      exact ⟨_, t, hk.symm, ht, rfl⟩

def blk (t : Tri) : List GlifPoint :=
  match t.2.2.ptype with
  | .curve => [t.1, t.2.1, t.2.2]
  | .qcurve => [t.2.1, t.2.2]
  | .line => [t.2.2]
  | .move => [t.2.2]
  | _ => []

theorem filter_flatT (P : Nat → Bool) (T : List Tri) : ∀ (k : Nat)
    (_ : ∀ i t, T[i]? = some t → (P (k + 3 * i) = (t.2.2.ptype == .curve)) ∧
      (P (k + 3 * i + 1) = (t.2.2.ptype == .curve || t.2.2.ptype == .qcurve)) ∧
      (P (k + 3 * i + 2) = !(blk t).isEmpty)),
    (((flatT T).zipIdx k).filter fun x => P x.2).map Prod.fst = T.flatMap blk := by
  induction T with
  | nil => intro k _; simp [flatT]
  | cons t T ih =>
    intro k h
    have e : flatT (t :: T) = t.1 :: t.2.1 :: t.2.2 :: flatT T := rfl
    obtain ⟨h0, h1, h2⟩ := h 0 t rfl
    rw [Nat.mul_zero, Nat.add_zero] at h0 h1 h2
    have ih' := ih (k + 1 + 1 + 1) (by
      intro i t' ht
      have := h (i + 1) t' (by simpa using ht)
      have e1 : k + 3 * (i + 1) = k + 1 + 1 + 1 + 3 * i := by omega
      rw [e1] at this
      exact this)
    rw [e, List.zipIdx_cons, List.zipIdx_cons, List.zipIdx_cons, List.filter_cons, List.filter_cons,
      List.filter_cons, List.flatMap_cons]
    have h1' : P (k + 1) = (t.2.2.ptype == .curve || t.2.2.ptype == .qcurve) := h1
    have h2' : P (k + 1 + 1) = !(blk t).isEmpty := h2
    simp only [h0, h1', h2']
    generalize T.flatMap blk = X at ih' ⊢
    unfold blk
    cases hp : t.2.2.ptype <;> simp [ih']

theorem keepList_mem (j i : Nat) (pt : PointType) : (j : Int) ∈ keepList i pt ↔
    (j = i ∧ (pt = .move ∨ pt = .line ∨ pt = .curve ∨ pt = .qcurve)) ∨
    (j + 1 = i ∧ (pt = .curve ∨ pt = .qcurve)) ∨ (j + 2 = i ∧ pt = .curve) := by
  cases pt <;> simp [keepList] <;> omega

theorem cleanup_flatT {T : List Tri} (hT : ∀ t ∈ T, t.1.ptype = .offcurve ∧ t.2.1.ptype = .offcurve)
    (hu : ∀ t ∈ T, ¬ unwritable t.2.2.ptype) : cleanupOffcurves (flatT T) = .ok (T.flatMap blk) := by
  classical
  rw [cleanup_ok]
  · congr 1
    apply filter_flatT (fun n => decide (kept? (flatT T) n)) T 0
    intro i t ht
    obtain ⟨g0, g1, g2⟩ := flatT_get T i
    rw [ht] at g0 g1 g2
    have key : ∀ j, kept? (flatT T) j ↔ ∃ i' t', T[i']? = some t' ∧ t'.2.2.ptype ≠ .offcurve ∧
        (j : Int) ∈ keepList (3 * i' + 2) t'.2.2.ptype := by
      intro j
      constructor
      · rintro ⟨k, gp, h1, h2, h3⟩
        obtain ⟨i', t', rfl, h5, rfl⟩ := flatT_on hT h1 h2
        exact ⟨i', t', h5, h2, h3⟩
      · rintro ⟨i', t', h1, h2, h3⟩
        refine ⟨3 * i' + 2, t'.2.2, ?_, h2, h3⟩
        rw [(flatT_get T i').2.2, h1]; rfl
    have uniq : ∀ i' t', T[i']? = some t' → i' = i → t' = t := by
      intro i' t' h e; subst e; rw [ht] at h; cases h; rfl
    simp only [Nat.zero_add, key, keepList_mem]
    refine ⟨?_, ?_, ?_⟩
    · rw [Bool.eq_iff_iff, decide_eq_true_eq, beq_iff_eq]
      constructor
      · rintro ⟨i', t', h1, h2, h3⟩
        have : i' = i := by omega
        have e := uniq _ _ h1 this
        subst this; subst e
        rcases h3 with h | h | h
        · omega
        · omega
        · exact h.2
      · intro h
        exact ⟨i, t, ht, by simp [h], Or.inr (Or.inr ⟨rfl, h⟩)⟩
    · rw [Bool.eq_iff_iff, decide_eq_true_eq]
      simp only [Bool.or_eq_true, beq_iff_eq]
      constructor
      · rintro ⟨i', t', h1, h2, h3⟩
        have : i' = i := by omega
        have e := uniq _ _ h1 this
        subst this; subst e
        rcases h3 with h | h | h
        · omega
        · exact h.2
        · omega
      · intro h
        exact ⟨i, t, ht, by rcases h with h | h <;> simp [h], Or.inr (Or.inl ⟨rfl, h⟩)⟩
    · rw [Bool.eq_iff_iff, decide_eq_true_eq]
      have hne := hu t (List.mem_of_getElem? ht)
      constructor
      · rintro ⟨i', t', h1, h2, h3⟩
        have : i' = i := by omega
        have e := uniq _ _ h1 this
        subst this; subst e
        rcases h3 with h | h | h
        · rcases h.2 with h | h | h | h <;> simp [blk, h]
        · omega
        · omega
      · intro h
        unfold unwritable at hne
        refine ⟨i, t, ht, ?_, Or.inl ⟨rfl, ?_⟩⟩
        all_goals
          unfold blk at h
          cases hp : t.2.2.ptype <;> simp_all
  · intro gp hm hun
    obtain ⟨k, hk⟩ := List.getElem?_of_mem hm
    obtain ⟨i, t, -, ht, rfl⟩ := flatT_on hT hk (by rcases hun with h | h <;> simp [h])
    exact hu t (List.mem_of_getElem? ht) hun

theorem rotR_map {α β : Type} (f : α → β) (l : List α) : rotR (l.map f) = (rotR l).map f := by
  unfold rotR
  rw [List.getLast?_map]
  cases l.getLast? <;> simp [List.map_dropLast]

theorem zip_dropLast {α : Type} (z : α) (l : List α) :
    (z :: l.dropLast).zip l = (z :: l).zip l := by
  suffices H : ∀ (m : List α) (y : α) (l : List α), m.length = l.length →
      (y :: m.dropLast).zip l = (y :: m).zip l from H l z l rfl
  intro m
  induction m with
  | nil => intro y l h; cases l <;> simp_all
  | cons b m ih =>
    intro y l h
    cases l with
    | nil => simp_all
    | cons x l =>
      cases m with
      | nil => cases l <;> simp_all
      | cons d m =>
        have := ih b l (by simpa using h)
        simp only [List.dropLast_cons_cons, List.zip_cons_cons] at this ⊢
        rw [this]

theorem cyclicPairs_rotR {α : Type} (l : List α) : (rotR l).zip l = cyclicPairs l := by
  unfold rotR cyclicPairs
  cases h : l.getLast? with
  | none => rfl
  | some z => exact zip_dropLast z l

/-- The triples of a contour. -/
def tris (c : Contour PD) : List Tri :=
  (cyclicPairs c).map fun (q, p) => (off (outPos q), off (inPos p), on p)

theorem interleave_tris (c : Contour PD) :
    interleave (rotR (c.map fun p => GlifPoint.fromHandle p .A))
      (c.map fun p => GlifPoint.fromHandle p .B) (c.map GlifPoint.ofPoint) = flatT (tris c) := by
  rw [interleave_zip, rotR_map]
  have : (c.map fun p => GlifPoint.fromHandle p .B).zip (c.map GlifPoint.ofPoint) =
      c.map fun p => (off (inPos p), on p) := by
    rw [List.zip_map']
    apply List.map_congr_left
    intro p _
    rw [fromHandle_B, ofPoint_on]
  rw [this, List.zip_map, cyclicPairs_rotR]
  have e : (cyclicPairs c).map (Prod.map (fun p => GlifPoint.fromHandle p .A)
      (fun p => (off (inPos p), on p))) = tris c := by
    unfold tris
    apply List.map_congr_left
    rintro ⟨q, p⟩ _
    simp [fromHandle_A]
  rw [e]

theorem mem_cyclicPairs_snd {α : Type} (l : List α) : (cyclicPairs l).map Prod.snd = l := by
  unfold cyclicPairs
  cases h : l.getLast? with
  | none => simp at h; simp [h]
  | some z => simp [List.map_snd_zip]

theorem blk_tris (q p : Point PD) (h : ¬ unwritable p.ptype) :
    blk (off (outPos q), off (inPos p), on p) = written q p := by
  unfold blk written offsBefore
  unfold unwritable at h
  simp only [on_ptype]
  cases hp : p.ptype <;> simp_all

theorem cleanup_contour {c : Contour PD} (h : ∀ p ∈ c, ¬ unwritable p.ptype) :
    cleanupOffcurves (flatT (tris c)) = .ok (fileCycle c) := by
  have hsnd : ∀ x ∈ cyclicPairs c, x.2 ∈ c := by
    intro x hx
    rw [← mem_cyclicPairs_snd c]
    exact List.mem_map_of_mem hx
  rw [cleanup_flatT]
  · congr 1
    unfold tris fileCycle
    rw [List.flatMap_map]
    rw [List.flatMap_def, List.flatMap_def]
    congr 1
    apply List.map_congr_left
    intro x hx
    exact blk_tris x.1 x.2 (h _ (hsnd x hx))
  · intro t ht
    obtain ⟨x, hx, rfl⟩ := List.mem_map.1 ht
    exact ⟨rfl, rfl⟩
  · intro t ht
    obtain ⟨x, hx, rfl⟩ := List.mem_map.1 ht
    exact h _ (hsnd x hx)

theorem rotateLoop_on {n : Nat} {p : GlifPoint} {l : List GlifPoint} (h : p.ptype ≠ .offcurve) :
    rotateLoop n (p :: l) = .ok (p :: l) := by
  cases n <;> simp [rotateLoop, h]

theorem rotateLoop_off {n : Nat} {x p : GlifPoint} {l : List GlifPoint} (h : x.ptype = .offcurve)
    (hp : p.ptype ≠ .offcurve) : rotateLoop (n + 1) (x :: l ++ [p]) = .ok (p :: x :: l) := by
  simp only [List.cons_append, rotateLoop, h, if_true, rotR]
  have : (x :: (l ++ [p])).getLast? = some p := by
    rw [← List.cons_append]; exact List.getLast?_concat
  rw [this]
  simp only []
  have : (x :: (l ++ [p])).dropLast = x :: l := by
    rw [← List.cons_append, List.dropLast_concat]
  rw [this]
  exact rotateLoop_on hp

/-- `fileCycle` ends with the last on-curve point. -/
theorem flatMap_written_last (l : List (Point PD × Point PD)) :
    l.flatMap (fun x => written x.1 x.2) = [] ∨
    ∃ r p, l.flatMap (fun x => written x.1 x.2) = r ++ [p] ∧ p.ptype ≠ .offcurve := by
  induction l with
  | nil => exact Or.inl rfl
  | cons x l ih =>
    rw [List.flatMap_cons]
    rcases ih with ih | ⟨r, p, hr, hp⟩
    · rw [ih, List.append_nil]
      unfold written
      split
      · exact Or.inl rfl
      · exact Or.inr ⟨_, on x.2, rfl, by assumption⟩
    · exact Or.inr ⟨written x.1 x.2 ++ r, p, by rw [hr, List.append_assoc], hp⟩

theorem fileCycle_last (c : Contour PD) : fileCycle c = [] ∨
    ∃ r p, fileCycle c = r ++ [p] ∧ p.ptype ≠ .offcurve := flatMap_written_last (cyclicPairs c)

theorem intoGlifpoints_eq {c : Contour PD} (h : ∀ p ∈ c, ¬ unwritable p.ptype) (hc : c ≠ []) :
    intoGlifpoints c = rotateLoop (fileCycle c).length (fileCycle c) := by
  unfold intoGlifpoints
  have : c.isEmpty = false := by cases c <;> simp_all
  simp only [this, Bool.false_eq_true, if_false]
  rw [interleave_tris, cleanup_contour h]
  rfl

theorem intoGlifpoints_unwritable {c : Contour PD} (h : ∃ p ∈ c, unwritable p.ptype) :
    intoGlifpoints c = .panic := by
  unfold intoGlifpoints
  have : c.isEmpty = false := by obtain ⟨p, hp, _⟩ := h; cases c <;> simp_all
  simp only [this, Bool.false_eq_true, if_false]
  rw [interleave_tris, cleanup_panic]
  · rfl
  · obtain ⟨p, hp, hu⟩ := h
    rw [← mem_cyclicPairs_snd c] at hp
    obtain ⟨x, hx, rfl⟩ := List.mem_map.1 hp
    refine ⟨on x.2, ?_, hu⟩
    unfold flatT tris
    rw [List.mem_flatMap]
    exact ⟨_, List.mem_map_of_mem hx, by simp⟩

/-- The file points when the cycle is not empty: start moved back to the last on-curve point if
there are off-curve points in front of the first one. -/
theorem intoGlifpoints_cycle {c : Contour PD} (h : ∀ p ∈ c, ¬ unwritable p.ptype)
    {x : GlifPoint} {r : List GlifPoint} (hr : fileCycle c = x :: r) :
    intoGlifpoints c = .ok (if x.ptype = .offcurve then Spec.startEarlier (x :: r) else x :: r) := by
  have hc : c ≠ [] := by rintro rfl; simp [fileCycle, cyclicPairs] at hr
  rw [intoGlifpoints_eq h hc, hr]
  split
  next ho =>
    rcases fileCycle_last c with h' | ⟨r', p, h', hp⟩
    · rw [h'] at hr; cases hr
    · rw [hr] at h'
      cases r' with
      | nil => simp at h'; rw [h'.1] at ho; exact absurd ho hp
      | cons y r' =>
        simp only [List.cons_append, List.cons.injEq] at h'
        obtain ⟨rfl, rfl⟩ := h'
        have hlen : (x :: (r' ++ [p])).length = (r'.length + 1) + 1 := by simp
        rw [hlen, ← List.cons_append, rotateLoop_off ho hp]
        unfold Spec.startEarlier
        rw [List.getLast?_append]
        simp only [List.getLast?_singleton, List.dropLast_concat]
        rfl
  next ho => exact rotateLoop_on ho

/-! ## Reading -/

def nextA (q p : Point PD) : Handle :=
  if p.ptype = .curve then .at (outPos q).1 (outPos q).2 else .colocated

def prevB (p : Point PD) : Handle :=
  if p.ptype = .curve then .at (inPos p).1 (inPos p).2 else .colocated

/-- A point as pushed by the reader: its A handle is provisional. -/
def pushed (q p : Point PD) : Point PD :=
  { x := p.x, y := p.y, a := nextA q p, b := prevB p, smooth := p.smooth, name := p.name, ptype := p.ptype }

def CubicPt (p : Point PD) : Prop := p.ptype = .move ∨ p.ptype = .line ∨ p.ptype = .curve

theorem modLast_append {α : Type} (f : α → α) (l : List α) (a : α) :
    modLast f (l ++ [a]) = l ++ [f a] := by
  induction l with
  | nil => rfl
  | cons b l ih =>
    cases l with
    | nil => rfl
    | cons d l => simp only [List.cons_append, modLast] at ih ⊢; rw [ih]

theorem foldR_append {α β : Type} (f : β → α → R β) (b : β) (l m : List α) :
    foldR f b (l ++ m) = (foldR f b l >>= fun b' => foldR f b' m) := by
  induction l generalizing b with
  | nil => rfl
  | cons a l ih =>
    simp only [List.cons_append, foldR]
    match f b a with
    | .ok b' => exact ih b'
    | .err e => rfl
    | .panic => rfl

theorem foldR_written {q p : Point PD} (hp : CubicPt p) (acc : Contour PD) (x : Point PD) :
    foldR (cubicStep (PD := PD)) (acc ++ [x], []) (written q p) =
      .ok (acc ++ [{ x with a := nextA q p }] ++ [pushed q p], []) := by
  rcases hp with h | h | h <;>
    simp [written, offsBefore, h, foldR, cubicStep, modLast_append, nextA, prevB, pushed, on, off,
      Handle.ofGlifPoint, IOF.toF32]

/-- The points read for a sequence of points with predecessors, `x` being the point before. -/
def chain (x : Point PD) : List (Point PD × Point PD) → Contour PD
  | [] => [x]
  | (q, p) :: l => { x with a := nextA q p } :: chain (pushed q p) l

theorem foldR_chain (l : List (Point PD × Point PD)) (hl : ∀ y ∈ l, CubicPt y.2) :
    ∀ (acc : Contour PD) (x : Point PD),
    foldR (cubicStep (PD := PD)) (acc ++ [x], []) (l.flatMap fun y => written y.1 y.2) =
      .ok (acc ++ chain x l, []) := by
  induction l with
  | nil => intro acc x; rfl
  | cons y l ih =>
    intro acc x
    rw [List.flatMap_cons, foldR_append, foldR_written (hl y List.mem_cons_self), Out.bind_ok,
      ih (fun z hz => hl z (List.mem_cons_of_mem _ hz))]
    simp [chain]

/-- Consecutive pairs of `x :: l`. -/
def pairsFrom (x : Point PD) : List (Point PD) → List (Point PD × Point PD)
  | [] => []
  | p :: l => (x, p) :: pairsFrom p l

/-- File points of a contour that starts with `h`: the first on-curve point, the rest, and the
off-curve points of the closing segment. -/
def fileFrom (h : Point PD) (rest : List (Point PD)) : List GlifPoint :=
  on h :: (pairsFrom h rest).flatMap (fun y => written y.1 y.2) ++
    offsBefore ((h :: rest).getLast (by simp)) h

theorem chain_kept (rest : List (Point PD)) : ∀ (x h y : Point PD),
    modLast (fun p => { p with a := nextA ((h :: rest).getLast (by simp)) x })
      (chain y (pairsFrom h rest)) =
    { y with a := nextA h (rest.head?.getD x) } :: List.zipWith Spec.kept rest (rest.tail ++ [x]) := by
  induction rest with
  | nil =>
    intro x h y
    simp [pairsFrom, chain, modLast]
  | cons p rest ih =>
    intro x h y
    have ih' := ih x p (pushed h p)
    simp only [pairsFrom, chain]
    have hne : ∃ y l, chain (pushed h p) (pairsFrom p rest) = y :: l := by
      cases rest <;> simp [pairsFrom, chain]
    obtain ⟨z, l, hyl⟩ := hne
    rw [hyl]
    simp only [modLast]
    rw [← hyl]
    simp only [List.getLast_cons_cons]
    rw [ih']
    cases rest <;> simp [Spec.kept, pushed, nextA, prevB] <;> exact ⟨rfl, rfl⟩

theorem offs_queue {l h : Point PD} (hh : CubicPt h) :
    Handle.ofGlifPoint (offsBefore l h).head? = nextA l h ∧
    Handle.ofGlifPoint (offsBefore l h).tail.head? = prevB h := by
  rcases hh with e | e | e <;>
    simp [offsBefore, e, Handle.ofGlifPoint, nextA, prevB, off, IOF.toF32]

theorem foldR_offs {l h : Point PD} (hh : CubicPt h) (c : Contour PD) :
    foldR (cubicStep (PD := PD)) (c, []) (offsBefore l h) = .ok (c, offsBefore l h) := by
  rcases hh with e | e | e <;>
    simp [offsBefore, e, foldR, cubicStep]

theorem cubicContour_fileFrom {h : Point PD} {rest : List (Point PD)} (hh : CubicPt h)
    (hr : ∀ p ∈ rest, CubicPt p) (hne : ¬ (rest = [] ∧ h.ptype = .move)) :
    cubicContour (fileFrom h rest) = .ok (Spec.keptContour (h :: rest)) := by
  unfold cubicContour fileFrom
  rw [foldR_append, List.singleton_append.symm, foldR_append]
  have h0 : foldR (cubicStep (PD := PD)) ([], []) [on h] =
      .ok ([] ++ [{ x := h.x, y := h.y, smooth := h.smooth, name := h.name, ptype := h.ptype }], []) := by
    rcases hh with e | e | e <;>
      simp [foldR, cubicStep, e, modLast, Handle.ofGlifPoint, on, IOF.toF32]
  rw [h0, Out.bind_ok, foldR_chain]
  · simp only [Out.bind_ok, List.nil_append]
    rw [foldR_offs hh]
    simp only [Out.bind_ok]
    rw [(offs_queue hh).1, (offs_queue hh).2, chain_kept]
    simp only []
    have hb : ∀ (z : Handle), (if h.ptype ≠ PointType.move then
        ({ x := h.x, y := h.y, smooth := h.smooth, name := h.name, ptype := h.ptype, a := z, b := prevB h } : Point PD)
        else { x := h.x, y := h.y, smooth := h.smooth, name := h.name, ptype := h.ptype, a := z }) =
        { x := h.x, y := h.y, smooth := h.smooth, name := h.name, ptype := h.ptype, a := z, b := prevB h } := by
      intro z
      split
      · rfl
      next e => simp at e; simp [prevB, e]
    cases rest with
    | nil =>
      have hm : h.ptype ≠ .move := fun e => hne ⟨rfl, e⟩
      simp [hm, Spec.keptContour, Spec.kept, nextA, prevB]
      rfl
    | cons p rest =>
      by_cases e : h.ptype = .move
      · simp [e, Spec.keptContour, Spec.kept, nextA]
        rfl
      · simp [e, Spec.keptContour, Spec.kept, nextA, prevB]
        rfl
  · intro y hy
    have : ∀ (l : List (Point PD)) (x : Point PD), y ∈ pairsFrom x l → y.2 ∈ l := by
      intro l
      induction l with
      | nil => intro x hx; cases hx
      | cons a l ih =>
        intro x hx
        rcases List.mem_cons.1 hx with rfl | hx
        · exact List.mem_cons_self
        · exact List.mem_cons_of_mem _ (ih _ hx)
    exact hr _ (this rest h hy)

/-! ## Writing a cubic contour -/

theorem zip_pairsFrom (x : Point PD) (l : List (Point PD)) : (x :: l).zip l = pairsFrom x l := by
  induction l generalizing x with
  | nil => rfl
  | cons p l ih => simp only [List.zip_cons_cons, pairsFrom]; rw [ih]

theorem cyclicPairs_cons (p : Point PD) (rest : List (Point PD)) :
    cyclicPairs (p :: rest) = ((p :: rest).getLast (by simp), p) :: pairsFrom p rest := by
  unfold cyclicPairs
  rw [List.getLast?_eq_some_getLast (by simp)]
  simp only [List.zip_cons_cons]
  rw [zip_pairsFrom]

theorem pairsFrom_append (x z : Point PD) (l : List (Point PD)) :
    pairsFrom x (l ++ [z]) = pairsFrom x l ++ [((x :: l).getLast (by simp), z)] := by
  induction l generalizing x with
  | nil => rfl
  | cons p l ih => simp only [List.cons_append, pairsFrom, ih, List.getLast_cons_cons]

theorem cubic_not_unwritable {p : Point PD} (h : CubicPt p) : ¬ unwritable p.ptype := by
  rcases h with e | e | e <;> simp [unwritable, e]

/-- Where the file starts. -/
def start (c : Contour PD) : Contour PD :=
  match c with
  | p :: _ => if p.ptype = .curve then Spec.startEarlier c else c
  | [] => []

theorem intoGlifpoints_cubic {c : Contour PD} (hc : ∀ p ∈ c, CubicPt p) (hne : c ≠ []) :
    ∃ h rest, start c = h :: rest ∧ intoGlifpoints c = .ok (fileFrom h rest) := by
  cases c with
  | nil => exact absurd rfl hne
  | cons p0 rest =>
    have hu : ∀ p ∈ p0 :: rest, ¬ unwritable p.ptype := fun p hp => cubic_not_unwritable (hc p hp)
    have hcyc : fileCycle (p0 :: rest) = written ((p0 :: rest).getLast (by simp)) p0 ++
        (pairsFrom p0 rest).flatMap fun y => written y.1 y.2 := by
      unfold fileCycle
      rw [cyclicPairs_cons]
      rfl
    by_cases hcur : p0.ptype = .curve
    · -- the start moves
      have hw : ∀ q, written q p0 = [off (outPos q), off (inPos p0), on p0] := by
        intro q; simp [written, offsBefore, hcur]
      rw [hw] at hcyc
      rw [intoGlifpoints_cycle hu hcyc]
      rcases List.eq_nil_or_concat rest with rfl | ⟨init, z, rfl⟩
      · refine ⟨p0, [], by simp [start, hcur, Spec.startEarlier], ?_⟩
        simp [pairsFrom, Spec.startEarlier, fileFrom, offsBefore, hcur]
      · refine ⟨z, p0 :: init, ?_, ?_⟩
        · simp only [start, hcur, if_true, Spec.startEarlier]
          rw [List.concat_eq_append, ← List.cons_append, List.getLast?_append]
          simp only [List.getLast?_singleton, List.dropLast_concat]
          rfl
        · simp only [List.concat_eq_append]
          have hz : (p0 :: (init ++ [z])).getLast (List.cons_ne_nil _ _) = z := by
            rw [List.getLast_cons (by simp)]
            exact List.getLast_concat
          simp only [hz, off_ptype, if_true]
          congr 1
          rw [pairsFrom_append, List.flatMap_append]
          have hzo : z.ptype ≠ .offcurve := by
            have := hc z (by simp)
            rcases this with e | e | e <;> simp [e]
          have hwz : List.flatMap (fun y => written y.1 y.2)
              [((p0 :: init).getLast (by simp), z)] =
              offsBefore ((p0 :: init).getLast (by simp)) z ++ [on z] := by
            simp [written, hzo]
          rw [hwz]
          have : ∀ (A B : List GlifPoint), Spec.startEarlier (off (outPos z) ::
              (off (inPos p0) :: on p0 :: [] ++ (A ++ (B ++ [on z])))) =
              on z :: off (outPos z) :: off (inPos p0) :: on p0 :: (A ++ B) := by
            intro A B
            unfold Spec.startEarlier
            have e : off (outPos z) :: (off (inPos p0) :: on p0 :: [] ++ (A ++ (B ++ [on z]))) =
              (off (outPos z) :: off (inPos p0) :: on p0 :: (A ++ B)) ++ [on z] := by simp
            rw [e, List.getLast?_append]
            simp only [List.getLast?_singleton, List.dropLast_concat]
            rfl
          have := this ((pairsFrom p0 init).flatMap fun y => written y.1 y.2)
            (offsBefore ((p0 :: init).getLast (by simp)) z)
          refine this.trans ?_
          simp [fileFrom, pairsFrom, hw, List.getLast_cons_cons]
    · refine ⟨p0, rest, by simp [start, hcur], ?_⟩
      have hw : ∀ q, written q p0 = [on p0] ∧ offsBefore q p0 = [] := by
        intro q
        rcases hc p0 List.mem_cons_self with e | e | e
        · simp [written, offsBefore, e]
        · simp [written, offsBefore, e]
        · exact absurd e hcur
      rw [(hw _).1] at hcyc
      rw [intoGlifpoints_cycle hu hcyc]
      have : (on p0).ptype ≠ .offcurve := by
        rcases hc p0 List.mem_cons_self with e | e | e <;> simp [e]
      simp only [this, if_false]
      simp [fileFrom, (hw _).2]

end GP
