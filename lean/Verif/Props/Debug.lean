import Mathlib.Data.List.Perm.Lattice
import Verif.Model.Debug
import Verif.Props.ReadPoints
import Verif.Props.Reverse
import Verif.Props.SkiaPath
import Verif.Spec.Debug
/-!
# C96: a debug build does what a release build does
-/
open Fl
namespace GP
open Spec
variable {PD D : Type}

/-! ## Writing -/

theorem mapM'_congr' {ε α β : Type} {f g : α → Out ε β} {l : List α} (h : ∀ a ∈ l, f a = g a) :
    Out.mapM' f l = Out.mapM' g l := by
  induction l with
  | nil => rfl
  | cons a l ih =>
    rw [Out.mapM'_cons, Out.mapM'_cons, h a List.mem_cons_self, ih fun a ha => h a (List.mem_cons_of_mem _ ha)]

theorem debugAssert_true {ε : Type} {b : Bool} (h : b = true) : (Out.debugAssert b : Out ε Unit) = .ok () := by
  rw [h]; rfl

/-- As many numbers below `n` are in a list as the list has different ones, if all of them are below `n`. -/
theorem count_kept {α : Type} (l : List α) (ks : List Nat) (h : ∀ k ∈ ks, k < l.length) :
    ((l.zipIdx.filter fun x => ks.contains x.2).map Prod.fst).length = ks.dedup.length := by
  have h1 : ((l.zipIdx.filter fun x => ks.contains x.2).map Prod.fst).length =
      ((l.zipIdx.map Prod.snd).filter fun i => ks.contains i).length := by
    rw [List.length_map, List.filter_map, List.length_map]; rfl
  rw [h1]
  have h2 : l.zipIdx.map Prod.snd = List.range l.length := by
    rw [List.zipIdx_map_snd, List.range_eq_range']
  rw [h2]
  refine List.Perm.length_eq ?_
  rw [List.perm_ext_iff_of_nodup (List.nodup_range.filter _) (List.nodup_dedup _)]
  intro k
  rw [List.mem_filter, List.mem_dedup, List.mem_range, List.contains_iff_mem]
  exact ⟨fun h => h.2, fun hk => ⟨h k hk, hk⟩⟩

theorem cleanup_debug (l : List GlifPoint) : cleanupOffcurvesDebug l = cleanupOffcurves l := by
  by_cases hu : ∃ gp ∈ l, unwritable gp.ptype
  · rw [cleanup_panic hu]
    obtain ⟨gp, hm, hu⟩ := hu
    obtain ⟨i, hi⟩ := List.getElem?_of_mem hm
    have hmem := (mem_types l i gp.ptype).2 ⟨gp, hi, by rcases hu with h | h <;> simp [h], rfl⟩
    unfold cleanupOffcurvesDebug
    simp only []
    have : (l.zipIdx.filterMap fun (x : GlifPoint × Nat) =>
        if x.1.ptype ≠ .offcurve then some (x.2, x.1.ptype) else none).all (fun x => x.2.isValidOncurve) = false := by
      rw [← Bool.not_eq_true, List.all_eq_true]
      intro h
      have := h _ hmem
      rcases hu with h | h <;> simp [h, PointType.isValidOncurve, PointType.isValid] at this
    simp only [this]
    rfl
  · have hok : ∀ x ∈ (l.zipIdx.filterMap fun (x : GlifPoint × Nat) =>
        if x.1.ptype ≠ .offcurve then some (x.2, x.1.ptype) else none), x.1 < l.length ∧ ¬ unwritable x.2 ∧ x.2 ≠ .offcurve := by
      rintro ⟨i, pt⟩ hm
      obtain ⟨gp, h1, h2, rfl⟩ := (mem_types l i pt).1 hm
      exact ⟨(List.getElem?_eq_some_iff.1 h1).1, fun h => hu ⟨gp, List.mem_of_getElem? h1, h⟩, h2⟩
    unfold cleanupOffcurvesDebug cleanupOffcurves
    simp only []
    generalize (l.zipIdx.filterMap fun (x : GlifPoint × Nat) =>
        if x.1.ptype ≠ .offcurve then some (x.2, x.1.ptype) else none) = types at hok
    rw [debugAssert_true, Out.bind_ok, Out.mapM'_ok (g := fun x => keepList x.1 x.2) (fun x hx => keepFor_eq (hok x hx).2.1 (hok x hx).2.2),
      Out.bind_ok, Out.bind_ok, debugAssert_true, Out.bind_ok, debugAssert_true, Out.bind_ok]
    · rw [beq_iff_eq]
      refine count_kept l _ fun k hk => ?_
      obtain ⟨z, hz, hk⟩ := List.mem_filterMap.1 hk
      obtain ⟨ks, hks, hz⟩ := List.mem_flatten.1 hz
      obtain ⟨x, hm, rfl⟩ := List.mem_map.1 hks
      have hx := (hok x hm).1
      split at hk
      · next h0 =>
        cases hk
        rw [← Int.toNat_of_nonneg h0, keepList_mem] at hz
        omega
      · cases hk
    · simp
    · rw [List.all_eq_true]
      intro x hx
      obtain ⟨-, h1, h2⟩ := hok x hx
      unfold unwritable at h1
      cases ht : x.2 <;> simp_all [PointType.isValidOncurve, PointType.isValid]

theorem length_rotR {α : Type} (l : List α) : (rotR l).length = l.length := by
  unfold rotR
  cases h : l.getLast? with
  | none => rw [List.getLast?_eq_none_iff] at h; rw [h]
  | some a =>
    cases l with
    | nil => cases h
    | cons b l => simp

theorem intoGlifpoints_debug (c : Contour PD) : intoGlifpointsDebug c = intoGlifpoints c := by
  unfold intoGlifpointsDebug intoGlifpoints
  simp only [cleanup_debug]
  split
  · rfl
  · rw [debugAssert_true, Out.bind_ok, debugAssert_true, Out.bind_ok]
    · simp only [List.all_cons, List.all_nil, Bool.and_true, Bool.and_eq_true, List.isEmpty_iff, List.drop_eq_nil_iff, length_rotR,
        List.length_map, le_refl, and_self]
    · simp only [length_rotR, List.length_map, beq_self_eq_true, Bool.and_self]

/-- No off-curve point that is written is smooth. -/
theorem off_not_smooth (c : Contour PD) (gc : GlifContour) (h : intoGlifpoints c = .ok gc) :
    ∀ p ∈ gc, p.smooth = true → p.ptype ≠ .offcurve := by
  have hnp : ¬ intoGlifpoints c = .panic := by rw [h]; simp
  rw [C05_panics_iff] at hnp
  have h1 : ∃ p ∈ c, p.ptype ≠ .offcurve := by
    by_contra hh; exact hnp (Or.inl fun p hp => by by_contra ho; exact hh ⟨p, hp, ho⟩)
  have h2 : ∀ p ∈ c, Writable p.ptype := by
    intro p hp
    have : ¬ (p.ptype = .undefined ∨ p.ptype = .qclose) := fun hh => hnp (Or.inr ⟨p, hp, hh⟩)
    unfold Writable
    cases hpt : p.ptype <;> simp_all
  obtain ⟨x, r', e, ⟨s, t, hs, ht⟩, _⟩ := C05_file_points c h1 h2
  rw [h] at e
  cases e
  intro p hp
  rw [ht] at hp
  have hp' : p ∈ fileCycle c := by
    rw [hs, List.mem_append]; rw [List.mem_append] at hp; exact hp.symm
  obtain ⟨⟨q, p'⟩, -, hw⟩ := List.mem_flatMap.1 hp'
  simp only [written] at hw
  split at hw
  · cases hw
  · next ho =>
    rcases List.mem_append.1 hw with hw | hw
    · unfold offsBefore at hw
      split at hw <;> simp only [List.mem_cons, List.not_mem_nil, or_false] at hw
      · rcases hw with rfl | rfl <;> exact fun h => (nomatch h)
      · rw [hw]; exact fun h => (nomatch h)
    · rw [List.mem_singleton] at hw
      rw [hw]
      exact fun _ => ho

theorem pointXml_debug {p : GlifPoint} (h : p.smooth = true → p.ptype ≠ .offcurve) : pointXmlDebug p = .ok (pointXml p) := by
  unfold pointXmlDebug
  cases hs : p.smooth with
  | false => rfl
  | true =>
    simp only [if_true]
    rw [debugAssert_true]
    · rfl
    · simpa using h hs

theorem contourXml_debug (c : Contour PD) : contourXmlDebug c = contourXml c := by
  unfold contourXmlDebug contourXml
  rw [intoGlifpoints_debug]
  match h : intoGlifpoints c with
  | .ok gc =>
    rw [Out.bind_ok, Out.bind_ok, Out.mapM'_ok (g := pointXml) fun p hp => pointXml_debug (off_not_smooth c gc h p hp), Out.bind_ok]
    unfold glifContourXml
    rw [List.map_map]; rfl
  | .err e => rfl
  | .panic => rfl

/-- **C96, writing.** A debug build writes every glyph as a release build does, and panics only where that panics. -/
theorem C96_write (pio : PlistIO D) (g : Glif PD D) : glifXmlDebug pio g = glifXml pio g := by
  have : (outlineXmlDebug : Outline PD → R Element) = outlineXml := by
    funext o
    unfold outlineXmlDebug outlineXml
    rw [mapM'_congr' fun c _ => contourXml_debug c]
  unfold glifXmlDebug glifXml
  rw [this]
  cases g.outline <;> rfl

/-! ## Reversal -/

/-- **C96, reversal.** A debug build does what a release build does except for open contours of two or more points
with a handle in front of their first point or behind their last one: there it panics. -/
theorem C96_partial (c : Contour PD) :
    ((∃ p m z, c = p :: m ++ [z] ∧ p.ptype = .move ∧ ¬ (p.b = .colocated ∧ z.a = .colocated)) → toReversedDebug c = .panic) ∧
    ((¬ ∃ p m z, c = p :: m ++ [z] ∧ p.ptype = .move ∧ ¬ (p.b = .colocated ∧ z.a = .colocated)) →
      toReversedDebug c = toReversed c) := by
  match c with
  | [] => exact ⟨fun ⟨_, _, _, h, _⟩ => by simp at h, fun _ => rfl⟩
  | [p] =>
    refine ⟨fun ⟨_, _, _, h, _⟩ => by simp at h, fun _ => ?_⟩
    unfold toReversedDebug
    rw [C28_single]; rfl
  | p :: q :: r =>
    obtain ⟨m, z, hm⟩ : ∃ m z, q :: r = m ++ [z] := by
      rcases List.eq_nil_or_concat (q :: r) with h | ⟨m, z, h⟩
      · cases h
      · exact ⟨m, z, by rw [h, List.concat_eq_append]⟩
    have hex : (∃ p' m' z', p :: q :: r = p' :: m' ++ [z'] ∧ p'.ptype = .move ∧ ¬ (p'.b = .colocated ∧ z'.a = .colocated)) ↔
        (p.ptype = .move ∧ ¬ (p.b = .colocated ∧ z.a = .colocated)) := by
      constructor
      · rintro ⟨p', m', z', h, h1, h2⟩
        rw [hm, List.cons_append, List.cons.injEq] at h
        obtain ⟨rfl, h⟩ := h
        obtain ⟨-, h⟩ := List.append_inj' h rfl
        cases h
        exact ⟨h1, h2⟩
      · rintro ⟨h1, h2⟩
        exact ⟨p, m, z, by rw [hm]; rfl, h1, h2⟩
    rw [hex]
    unfold toReversedDebug
    by_cases h : p.ptype = .move
    · obtain ⟨t, hr⟩ : ∃ t, toReversed (p :: (m ++ [z])) =
          .ok ({ swapped z with ptype := .move } :: m.reverse.map swapped ++ [{ swapped p with ptype := t }]) := by
        rw [← List.cons_append]
        exact ⟨_, toReversed_open h⟩
      rw [← hm] at hr
      rw [hr]
      simp only [if_pos h, Out.bind_ok]
      rw [List.getLast?_concat, List.cons_append, List.head?_cons]
      simp only [Out.unwrap_some, Out.bind_ok, swapped]
      constructor
      · rintro ⟨-, hn⟩
        by_cases hz : z.a = .colocated
        · have hp : ¬ p.b = .colocated := fun hp => hn ⟨hp, hz⟩
          rw [debugAssert_true (by rw [hz]; decide), Out.bind_ok]
          have : (p.b == Handle.colocated) = false := by simpa using hp
          rw [this]; rfl
        · have : (z.a == Handle.colocated) = false := by simpa using hz
          rw [this]; rfl
      · intro hn
        have hh : p.b = .colocated ∧ z.a = .colocated := by
          by_contra hc; exact hn ⟨h, hc⟩
        rw [debugAssert_true (by rw [hh.2]; decide), Out.bind_ok, debugAssert_true (by rw [hh.1]; decide), Out.bind_ok]
    · refine ⟨fun hh => absurd hh.1 h, fun _ => ?_⟩
      simp only [if_neg h]
      cases toReversed (p :: q :: r) <;> rfl

/-- An open contour that can be reversed, and one that a debug build cannot reverse. -/
example : (∃ c', toReversedDebug [Sample.pt .move 0 0, Sample.cv 10 0 10 0 5 5, Sample.pt .line 10 10] = .ok c') ∧
    toReversedDebug [Sample.pt .move 0 0, Sample.cv 10 0 10 0 5 5] = .panic := by
  refine ⟨⟨_, rfl⟩, ?_⟩
  exact (C96_partial _).1 ⟨Sample.pt .move 0 0, [], Sample.cv 10 0 10 0 5 5, rfl, rfl, fun h => (nomatch h.2)⟩

/-- The first point of a contour that the file tells and the last one. -/
theorem curves_ends {b : Option Element} {e : Element} {segs : List (List Element × Element)} {back : List Element} {c : Contour PD}
    (h : Curves b e segs back c) : ∃ p z, c.head? = some p ∧ c.getLast? = some z ∧ PointSays e p ∧ HandleSays b p.b ∧
      HandleSays back[0]? z.a ∧ c.length = segs.length + 1 := by
  induction h with
  | last b e back p h1 h2 h3 => exact ⟨p, p, rfl, rfl, h1, h2, h3, rfl⟩
  | more b e offs e' segs back p c h1 h2 _ _ ih =>
    obtain ⟨p', z, hp, hz, -, -, ha, hl⟩ := ih
    refine ⟨p, z, rfl, ?_, h1, h2, ha, by simp [hl]⟩
    rw [List.getLast?_cons, hz]; rfl

theorem toReversed_ok {c : Contour PD} (h : c ≠ []) : toReversed c ≠ .panic := by
  cases c with
  | nil => exact absurd rfl h
  | cons p r => exact fun hp => absurd ((C27_panics_iff (p :: r)).1.1 hp) h

theorem read_debug (mid : IOF → IOF → IOF) {el : Element} {gc : GlifContour} {c : Contour PD} (hgc : readContour el = .ok gc)
    (hc : contourOfGlif mid gc = .ok c) (hd : ¬ Dropped el) {e : Element} {segs : List (List Element × Element)} {back : List Element}
    (hf : named "point" el.children = filePoints e segs back) (hs : Segmented e segs back) :
    c ≠ [] ∧ (toReversedDebug c = .panic ↔ OfType e "move" ∧ waiting [] segs ++ back ≠ []) := by
  obtain ⟨hcub, hquad⟩ := contour_says mid hgc hc hd hf hs
  have mv : ∀ p : Point PD, PointSays e p → (p.ptype = .move ↔ OfType e "move") := by
    intro p hp
    have hty := hp.2.1
    unfold TypeSays at hty
    constructor
    · intro hm
      rw [hm] at hty
      rcases hty with h | h | h | h | h
      · exact h.1
      all_goals exact absurd h.2 (by simp)
    · intro hm
      rcases hty with h | h | h | h | h
      · exact h.2
      all_goals
        have h' := h.1
        unfold OfType at hm
        first
          | (unfold OfType at h'; rw [hm] at h'; exact absurd (Option.some.inj h') (by decide))
          | exact absurd (by decide) (h' _ hm)
  have nomove : ¬ OfType e "move" → (∃ p r, c = p :: r ∧ PointSays e p) →
      c ≠ [] ∧ (toReversedDebug c = .panic ↔ OfType e "move" ∧ waiting [] segs ++ back ≠ []) := by
    rintro hnm ⟨p, r, rfl, hp⟩
    refine ⟨by simp, fun hpan => ?_, fun h => absurd h.1 hnm⟩
    rw [(C96_partial (p :: r)).2] at hpan
    · exact absurd hpan (toReversed_ok (by simp))
    · rintro ⟨p', m, z, e', hpm, -⟩
      rw [List.cons_append, List.cons.injEq] at e'
      rw [← e'.1] at hpm
      exact hnm ((mv p hp).1 hpm)
  by_cases hq : OfType e "qcurve"
  · obtain ⟨p, d, f, rfl, hp, -, -⟩ := hquad hq
    refine nomove ?_ ⟨p, d ++ f, rfl, hp.1⟩
    intro hm
    unfold OfType at hm hq
    rw [hq] at hm
    exact absurd (Option.some.inj hm) (by decide)
  · have hty : OfType e "move" ∨ OfType e "line" ∨ OfType e "curve" := by
      by_contra hn
      refine hs.1 fun t ht hmem => hn ?_
      unfold onCurveTypes at hmem
      simp only [List.mem_cons, List.not_mem_nil, or_false] at hmem
      unfold OfType at hq ⊢
      rw [ht] at hq ⊢
      rcases hmem with rfl | rfl | rfl | rfl <;> simp_all
    obtain ⟨b, hb1, -, hcv⟩ := hcub hty
    obtain ⟨p, z, hph, hzl, hps, hpb, hza, hlen⟩ := curves_ends hcv
    by_cases hmv : OfType e "move"
    · have hb := hb1 hmv
      subst hb
      have hpb' : p.b = .colocated := hpb
      have hsegs : segs ≠ [] := by
        rintro rfl
        refine hd ?_
        unfold Dropped
        rw [hf]
        exact Or.inr ⟨hmv, fun q hq => hs.2.2 q (by simpa using hq)⟩
      have hlen' : (handedOn [] segs).length = segs.length := by
        have : ∀ (l : List (List Element × Element)) (q : List Element), (handedOn q l).length = l.length := by
          intro l
          induction l with
          | nil => intro q; rfl
          | cons s l ih => intro q; rw [handedOn, List.length_cons, List.length_cons, ih]
        exact this _ _
      rw [hlen'] at hlen
      obtain ⟨m, rfl⟩ : ∃ m, c = p :: m ++ [z] := by
        cases c with
        | nil => cases hph
        | cons p' r =>
          cases hph
          rcases List.eq_nil_or_concat r with rfl | ⟨m, z', rfl⟩
          · cases segs with
            | nil => exact absurd rfl hsegs
            | cons _ _ => simp at hlen
          · rw [List.concat_eq_append, ← List.cons_append, List.getLast?_concat] at hzl
            cases hzl
            exact ⟨m, by rw [List.concat_eq_append]; rfl⟩
      have hza' : z.a = .colocated ↔ waiting [] segs ++ back = [] := by
        cases hw : waiting [] segs ++ back with
        | nil =>
          rw [hw] at hza
          exact ⟨fun _ => rfl, fun _ => hza⟩
        | cons w ws =>
          rw [hw] at hza
          obtain ⟨x, y, hxy, -⟩ := hza
          rw [hxy]
          exact ⟨fun h => (nomatch h), fun h => (nomatch h)⟩
      refine ⟨by simp, ?_, ?_⟩
      · intro hpan
        refine ⟨hmv, fun hw => ?_⟩
        rw [(C96_partial _).2] at hpan
        · exact absurd hpan (toReversed_ok (by simp))
        · rintro ⟨p', m', z', e', -, hn⟩
          rw [List.cons_append, List.cons_append, List.cons.injEq] at e'
          obtain ⟨rfl, e'⟩ := e'
          obtain ⟨-, e'⟩ := List.append_inj' e' rfl
          cases e'
          exact hn ⟨hpb', hza'.2 hw⟩
      · rintro ⟨-, hw⟩
        exact (C96_partial _).1 ⟨p, m, z, rfl, (mv p hps).2 hmv, fun hn => hw (hza'.1 hn.2)⟩
    · refine nomove hmv ?_
      cases c with
      | nil => cases hph
      | cons p' r => cases hph; exact ⟨p, r, rfl, hps⟩

open Classical in
/-- A contour read from a file can be reversed in a debug build exactly if it is closed or no off-curve points are left over
at its end; then the result is that of a release build. -/
theorem C96_read (mid : IOF → IOF → IOF) (pio : PlistIO D) (ped : Pedantry) (root : Element) (g : Glif PD D)
    (h : readGlif mid pio ped root = .ok g) :
    List.Forall₂ (fun el c => ∀ e segs back, named "point" el.children = filePoints e segs back → Segmented e segs back →
        ∃ c', toReversed c = .ok c' ∧
          toReversedDebug c = if OfType e "move" ∧ waiting [] segs ++ back ≠ [] then .panic else .ok c')
      ((contoursOf root).filter fun e => ¬ Dropped e) (g.outline.getD []) := by
  have hm := C08_file mid pio ped root g h
  rw [List.forall₂_iff_get] at hm ⊢
  refine ⟨hm.1, fun i h1 h2 => ?_⟩
  obtain ⟨_, gc, hgc, hc⟩ := hm.2 i h1 h2
  have hd : ¬ Dropped (((contoursOf root).filter fun e => ¬ Dropped e).get ⟨i, h1⟩) := by
    have := List.get_mem ((contoursOf root).filter fun e => ¬ Dropped e) ⟨i, h1⟩
    simpa using (List.mem_filter.1 this).2
  intro e segs back hf hs
  obtain ⟨hne, hiff⟩ := read_debug mid hgc hc hd hf hs
  generalize (g.outline.getD []).get ⟨i, h2⟩ = c at hne hiff
  match hrc : toReversed c with
  | .err e => exact absurd hrc ((C27_panics_iff c).2 e)
  | .panic => exact absurd hrc (toReversed_ok hne)
  | .ok c' =>
    refine ⟨c', rfl, ?_⟩
    split
    · next h => exact hiff.2 h
    · next h =>
      rcases Classical.em (∃ p m z, c = p :: m ++ [z] ∧ p.ptype = .move ∧ ¬ (p.b = .colocated ∧ z.a = .colocated)) with hh | hh
      · exact absurd (hiff.1 ((C96_partial c).1 hh)) h
      · rw [(C96_partial c).2 hh, hrc]

/-- Files can be read whose contours a release build reverses and a debug build does not: those with open contours
that have off-curve points at the end. -/
theorem C96_false (mid : IOF → IOF → IOF) (pio : PlistIO D) :
    ∃ root, ∃ g : Glif PD D, readGlif mid pio {} root = .ok g ∧ ∃ c c', g.outline = some [c] ∧ toReversed c = .ok c' ∧
      toReversedDebug c = .panic := by
  have n0 : IOF.parse "0".toList = some (.int 0) := by decide +kernel
  have hn : IsNumber "0".toList := (C79_accepted _).1 ⟨_, n0⟩
  let el (t : String) : Element := ⟨"point", [("x", "0".toList), ("y", "0".toList), ("type", t.toList)], []⟩
  let off : Element := ⟨"point", [("x", "0".toList), ("y", "0".toList)], []⟩
  let ps := [Sample.pe "move" "0" "0", Sample.pe "line" "0" "0", Sample.offe "0" "0"]
  have hps : named "point" ps = [el "move", el "line", off] := rfl
  have hco : contoursOf (Sample.doc ps) = [⟨"contour", [], ps⟩] := rfl
  obtain ⟨g, hg⟩ := (read_iff (PD := PD) mid pio {} (Sample.doc ps)).2 ⟨by
    apply doc_acceptable
    intro p hp
    rw [hps] at hp
    simp only [List.mem_cons, List.not_mem_nil, or_false] at hp
    rcases hp with rfl | rfl | rfl <;> exact ⟨⟨_, rfl, hn⟩, ⟨_, rfl, hn⟩⟩, by
    rintro ⟨c, hc, hq⟩
    rw [hco, List.mem_singleton] at hc
    subst hc
    obtain ⟨p, ps', e, _, q, hq, ht⟩ := hq
    simp only [hps] at e
    cases e
    simp only [List.mem_cons, List.not_mem_nil, or_false] at hq
    rcases hq with rfl | rfl <;> revert ht <;> unfold OfType <;> decide⟩
  have offT : IsOff off := by intro t ht; cases ht
  have onT : ∀ t ∈ ["move", "line"], ¬ IsOff (el t) := by
    intro t ht h
    refine h t.toList rfl ?_
    simp only [List.mem_cons, List.not_mem_nil, or_false] at ht
    rcases ht with rfl | rfl <;> decide
  have hnd : ¬ Dropped ⟨"contour", [], ps⟩ := by
    unfold Dropped
    simp only [hps]
    rintro (h | ⟨-, h⟩)
    · exact onT "move" (by simp) h
    · exact onT "line" (by simp) (h (el "line") (by simp))
  have hr := C96_read mid pio {} _ g hg
  rw [hco, List.filter_cons_of_pos (by simpa using hnd), List.filter_nil, List.forall₂_cons_left_iff] at hr
  obtain ⟨c, l, hc, hl, ho⟩ := hr
  cases hl
  have ho' : g.outline = some [c] := by
    cases hgo : g.outline with
    | none => rw [hgo] at ho; cases ho
    | some o => rw [hgo] at ho; exact congrArg some ho
  obtain ⟨c', hc', hpan⟩ := hc (el "move") [([], el "line")] [off] hps ⟨onT _ (by simp), by
    intro s hs
    rw [List.mem_singleton] at hs
    subst hs
    exact ⟨by simp, onT _ (by simp)⟩, by
    intro o ho
    rw [List.mem_singleton] at ho
    rw [ho]; exact offT⟩
  rw [if_pos ⟨rfl, by simp [waiting]⟩] at hpan
  exact ⟨_, g, hg, c, c', ho', hc', hpan⟩

/-! ## Skia paths -/

/-- Verbs in which a contour is closed at most once; `b` tells whether it can be closed. -/
def closesOnce : Bool → List SkVerb → Prop
  | _, [] => True
  | _, .move _ :: vs => closesOnce true vs
  | b, .close :: vs => b = true ∧ closesOnce false vs
  | b, .line .. :: vs => closesOnce b vs
  | b, .quad .. :: vs => closesOnce b vs
  | b, .conic .. :: vs => closesOnce b vs
  | b, .cubic .. :: vs => closesOnce b vs

theorem split_debug (vs : List SkVerb) : ∀ (b : Bool) (o : List (List SkPt)) (c : List SkPt), closesOnce b vs →
    (b = true → ∃ p r, c = p :: r ∧ p.ptype = .move) → skSplitDebug o c vs = skSplit o c vs := by
  induction vs with
  | nil => intro b o c _ _; rfl
  | cons v vs ih =>
    intro b o c h hb
    have more : ∀ (q : SkPt), b = true → ∃ p r, c ++ [q] = p :: r ∧ p.ptype = .move := by
      intro q hbt
      obtain ⟨p, r, rfl, hp⟩ := hb hbt
      exact ⟨p, r ++ [q], rfl, hp⟩
    cases v with
    | move p => exact ih true _ _ h fun _ => ⟨_, _, rfl, rfl⟩
    | line s p => exact ih b _ _ h (more _)
    | quad s d p => exact ih b _ _ h (more _)
    | conic s d p w => exact ih b _ _ h (more _)
    | cubic s d d' p => exact ih b _ _ h (more _)
    | close =>
      obtain ⟨hbt, h⟩ := h
      obtain ⟨p, r, rfl, hp⟩ := hb hbt
      unfold skSplitDebug skSplit
      simp only [SkVerb.pt, hp, if_true]
      exact ih false _ _ h fun h => (nomatch h)

theorem closesOnce_segs (gs : List SkSeg) (els : List SkEl) (b : Bool) (start : SkPoint) :
    ∀ last : SkPoint, (∀ last, closesOnce b (skIter last start els)) → closesOnce b (skIter last start (gs.map SkSeg.el ++ els)) := by
  induction gs with
  | nil => intro last h; exact h last
  | cons g gs ih =>
    intro last h
    cases g <;> exact ih _ h

theorem closesOnce_path (cs : List SkContour) : ∀ (b : Bool) (last start : SkPoint),
    closesOnce b (skIter last start (cs.flatMap SkContour.els)) := by
  induction cs with
  | nil => intro b last start; exact trivial
  | cons d cs ih =>
    intro b last start
    rw [List.flatMap_cons, SkContour.els, List.append_assoc, List.cons_append, skIter]
    by_cases hE : (d.segs.map SkSeg.el ++ ((if d.closed then [SkEl.close] else []) ++ cs.flatMap SkContour.els)).isEmpty = true
    · rw [if_pos hE]; exact trivial
    · rw [if_neg hE]
      refine closesOnce_segs _ _ true _ _ fun last => ?_
      cases d.closed with
      | false => exact ih _ _ _
      | true =>
        simp only [if_true, List.singleton_append, skIter]
        split
        · exact ⟨rfl, ih _ _ _⟩
        · exact ⟨rfl, ih _ _ _⟩

/-- What holds of the elements of all verbs holds of the elements of what is split. -/
theorem split_all {P : SkPt → Prop} (hP : ∀ (v : SkVerb) p, v.pt = some p → P p) (vs : List SkVerb) :
    ∀ (o : List (List SkPt)) (c : List SkPt) r, skSplit o c vs = .ok r → (∀ d ∈ o, ∀ p ∈ d, P p) → (∀ p ∈ c, P p) →
      ∀ d ∈ r, ∀ p ∈ d, P p := by
  have flush : ∀ (o : List (List SkPt)) (c : List SkPt), (∀ d ∈ o, ∀ p ∈ d, P p) → (∀ p ∈ c, P p) →
      ∀ d ∈ (if c.isEmpty then o else o ++ [c]), ∀ p ∈ d, P p := by
    intro o c ho hc
    split
    · exact ho
    · intro d hd
      rcases List.mem_append.1 hd with hd | hd
      · exact ho d hd
      · rw [List.mem_singleton.1 hd]; exact hc
  induction vs with
  | nil =>
    intro o c r h ho hc
    unfold skSplit at h
    cases h
    exact flush o c ho hc
  | cons v vs ih =>
    intro o c r h ho hc
    unfold skSplit at h
    cases hv : v.pt with
    | some p =>
      rw [hv] at h
      simp only at h
      split at h
      · refine ih _ _ _ h (flush o c ho hc) fun q hq => ?_
        rw [List.mem_singleton.1 hq]; exact hP v p hv
      · refine ih _ _ _ h ho fun q hq => ?_
        rcases List.mem_append.1 hq with hq | hq
        · exact hc q hq
        · rw [List.mem_singleton.1 hq]; exact hP v p hv
    | none =>
      rw [hv] at h
      simp only at h
      cases c with
      | nil => cases h
      | cons a c => exact ih _ _ _ h ho fun q hq => hc q (List.mem_cons_of_mem _ hq)

/-- **C96, Skia.** A debug build makes the same outline of every Skia path as a release build. -/
theorem C96_skia (conic : ConicToQuads) (cs : List SkContour) :
    (outlineFromSkiaDebug conic (cs.flatMap SkContour.els) : R (Outline PD)) = outlineFromSkia conic (cs.flatMap SkContour.els) := by
  unfold outlineFromSkiaDebug outlineFromSkia splitSkiaPath conicsToCubics
  rw [split_debug _ false _ _ (closesOnce_path cs false _ _) (fun h => (nomatch h))]
  match hs : skSplit [] [] (skIter (Flt.zero, Flt.zero) (Flt.zero, Flt.zero) (cs.flatMap SkContour.els)) with
  | .err _ => rfl
  | .panic => rfl
  | .ok o =>
    have hw := split_all (P := fun p => p.weight.isSome = true → p.ptype = .qcurve ∧ p.points.length = 3) (by
      intro v p hv
      cases v <;> cases hv <;> simp) _ _ _ _ hs (by simp) (by simp)
    rw [Out.bind_ok, Out.bind_ok]
    have e : Out.mapM' (fun c => do
          let l ← Out.mapM' (conicToCubicDebug conic) c
          Out.ok l.flatten) o = Out.mapM' (fun c => do
          let l ← Out.mapM' (conicToCubic conic) c
          (Out.ok l.flatten : R (List SkPt))) o := by
      refine mapM'_congr' fun c hc => ?_
      rw [mapM'_congr' (f := conicToCubicDebug conic) (g := conicToCubic conic)]
      intro p hp
      unfold conicToCubicDebug
      split
      · next h =>
        rw [debugAssert_true (by simpa using (hw c hc p hp h).2)]; rfl
      · rfl
    rw [e]
    match ho : Out.mapM' (fun c => do
          let l ← Out.mapM' (conicToCubic conic) c
          (Out.ok l.flatten : R (List SkPt))) o with
    | .err _ => rfl
    | .panic => rfl
    | .ok o' =>
      rw [Out.bind_ok, Out.bind_ok]
      refine mapM'_congr' fun c' hc' => ?_
      unfold fromSkContourDebug
      rw [debugAssert_true]
      · rfl
      · rw [List.all_eq_true]
        intro p hp
        obtain ⟨c, hc, hcc⟩ := forall₂_mem_right (mapM'_forall₂ ho) hc'
        obtain ⟨l, hl, hcc⟩ := bind_eq_ok.1 hcc
        cases hcc
        obtain ⟨ps, hps, hp⟩ := List.mem_flatten.1 hp
        obtain ⟨q, hq, hqp⟩ := forall₂_mem_right (mapM'_forall₂ hl) hps
        unfold conicToCubic at hqp
        have hwq := hw c hc q hq
        split at hqp
        · split at hqp
          · cases hqp
            rw [List.mem_singleton.1 hp]; rfl
          · cases hqp
            rcases List.mem_cons.1 hp with rfl | hp
            · rfl
            · rw [List.mem_singleton.1 hp]; rfl
          · cases hqp
        · next hne =>
          cases hqp
          rw [List.mem_singleton.1 hp]
          cases hqw : q.weight with
          | none => rfl
          | some w => exact absurd (hwq (by rw [hqw]; rfl)).1 hne

/-! ## Names of handles -/

theorem white_iff (c : Char) : unicodeWhite c = true ↔ c.toNat ∈ whiteSpace := by
  unfold unicodeWhite whiteSpace
  simp only [Bool.or_eq_true, Bool.and_eq_true, decide_eq_true_eq, beq_iff_eq, List.mem_cons, List.not_mem_nil, or_false]
  omega

theorem ofChar_debug (c : Char) : WhichHandle.ofCharDebug c = if c ∈ handleNames then .ok (WhichHandle.ofChar c) else .panic := by
  unfold WhichHandle.ofCharDebug handleNames
  by_cases h : WhichHandle.ofChar c = .neither
  · rw [if_pos h]
    by_cases h0 : c = Char.ofNat 0
    · rw [if_pos (by rw [h0]; decide), debugAssert_true (by rw [h0]; decide)]; rfl
    · have : (c == Char.ofNat 0) = false := by simpa using h0
      rw [this, if_neg]
      · rfl
      · unfold WhichHandle.ofChar at h
        split at h
        · cases h
        · split at h
          · cases h
          · simp_all
  · rw [if_neg h]
    rw [if_pos]
    · unfold WhichHandle.ofChar at h
      split at h
      · next hh => rcases hh with rfl | rfl | rfl | rfl <;> decide
      · split at h
        · next hh => rcases hh with rfl | rfl | rfl | rfl <;> decide
        · exact absurd rfl h

/-- **C96, names of handles.** A debug build panics for every text but a single name of a handle or a single white space, and
for those it does what a release build does: it finds the handle, or none for white space. -/
theorem C96_names (s : Str) :
    WhichHandle.fromStrDebug s =
      match s with
      | [c] => if c ∈ handleNames ∨ c.toNat ∈ whiteSpace then .ok (WhichHandle.fromStr s) else .panic
      | _ => .panic := by
  unfold WhichHandle.fromStrDebug
  match s with
  | [] => rfl
  | [c] =>
    rw [debugAssert_true (by rfl), Out.bind_ok]
    unfold WhichHandle.fromStr
    by_cases hw : unicodeWhite c = true
    · have : trimWhite [c] = [] := by unfold trimWhite; simp [hw]
      rw [this]
      simp only [if_pos (Or.inr ((white_iff c).1 hw) : c ∈ handleNames ∨ c.toNat ∈ whiteSpace)]
      rfl
    · have ht : trimWhite [c] = [c] := by unfold trimWhite; simp [hw]
      rw [ht]
      have hw' : ¬ c.toNat ∈ whiteSpace := fun h => hw ((white_iff c).2 h)
      simp only [List.head?_cons, ofChar_debug, Option.map_some]
      by_cases hc : c ∈ handleNames
      · rw [if_pos hc, if_pos (Or.inl hc)]; rfl
      · rw [if_neg hc, if_neg (fun h => h.elim hc hw')]; rfl
  | a :: b :: l =>
    have : ((a :: b :: l).length == 1) = false := by simp
    rw [this]; rfl

end GP
