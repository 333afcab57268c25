import Verif.Props.PenOps
/-!
# Which contours a kurbo path visits, exactly (C36)
-/
open Fl
namespace GP
variable {PD : Type}
open Spec

/-! ## Open contours -/

/-- The operations for the points `l` of an open contour, with `z` in front of them. -/
def tailOps (z : Point PD) : List (Point PD) → List PenOp
  | [] => []
  | [e] => [if e.ptype = .line then .lineTo (.ofPoint e) else .curveTo (.fromHandle z .A) (.fromHandle e .B) (.ofPoint e)]
  | x :: y :: l => opOf (x, y) :: tailOps x (y :: l)

/-- One step in an open contour, after the first two points. -/
theorem penStep_open {r : Contour PD} (h2 : 2 ≤ r.length) (ho : isOpen r = true) (ops : List PenOp) (i : Nat) (z x : Point PD)
    (hx : LC x) (hz : r[i - 1]? = some z) (hi : i ≠ 0) (hp : r[i]? = some x) (hops : i = 1 → ops ≠ []) :
    penStep r ops i x = .ok ((if i = 1 ∧ x.ptype = .line then ops.dropLast else ops) ++
      [match r[i + 1]? with
       | some y => opOf (x, y)
       | none => if x.ptype = .line then .lineTo (.ofPoint x) else .curveTo (.fromHandle z .A) (.fromHandle x .B) (.ofPoint x)]) := by
  have hlt : i < r.length := (List.getElem?_eq_some_iff.1 hp).1
  unfold penStep opOf
  rcases hx with e | e
  · rw [e]
    by_cases h1 : i = 1
    · have hne := hops h1
      cases hn : r[i + 1]? <;> simp [h1, hne, e]
    · cases hn : r[i + 1]? <;> simp [h1, e]
  · rw [e]
    simp only [contourPrevNext_ok h2 hlt, ho, true_and, if_neg hi]
    cases hn : r[i + 1]? with
    | none =>
      have : i = r.length - 1 := by
        have := List.getElem?_eq_none_iff.1 hn
        omega
      rw [if_pos this]
      simp [hz]
    | some y =>
      have hlt' : i + 1 < r.length := (List.getElem?_eq_some_iff.1 hn).1
      have : i ≠ r.length - 1 := by omega
      simp [if_neg this, hn, e]

theorem penLoop_open {r : Contour PD} (h2 : 2 ≤ r.length) (ho : isOpen r = true) (l : List (Point PD)) :
    ∀ (ops : List PenOp) (i : Nat) (z : Point PD), 2 ≤ i → r[i - 1]? = some z → r.drop i = l → (∀ x ∈ l, LC x) →
    penLoop r ops i l = .ok (ops ++ tailOps z l) := by
  induction l with
  | nil => intro ops i z _ _ _ _; simp [penLoop, tailOps]
  | cons x l ih =>
    intro ops i z hi hz hd hl
    have hp : r[i]? = some x := by
      have := congrArg List.head? hd
      rw [List.head?_drop] at this
      exact this
    have hd' : r.drop (i + 1) = l := by
      rw [← List.drop_drop, hd]
      rfl
    rw [penLoop, penStep_open h2 ho ops i z x (hl x (List.mem_cons_self ..)) hz (by omega) hp (fun h => by omega), Out.bind_ok,
      ih _ (i + 1) x (by omega) (by simpa using hp) hd' fun y hy => hl y (List.mem_cons_of_mem _ hy)]
    have hn : r[i + 1]? = l.head? := by rw [← List.head?_drop, hd']
    rw [hn, if_neg (by omega)]
    cases l with
    | nil => simp [tailOps]
    | cons y l => simp [tailOps]

/-- The refigured open contour. -/
theorem refigure_open {p q : Point PD} {rest : Contour PD} (hp : p.ptype = .move) :
    ∃ p' q' rest', refigure (p :: q :: rest) = p' :: q' :: rest' ∧ p'.ptype = .move ∧ (∀ x ∈ q' :: rest', LC x) ∧ rest'.length = rest.length ∧
      (q'.ptype = .line ↔ settle p.a p = .colocated ∧ settle q.b q = .colocated) := by
  rw [refigure_eq]
  refine ⟨_, _, _, rfl, by simp [hp], ?_, by simp, ?_⟩
  · intro x hx
    rcases List.mem_cons.1 hx with rfl | hx
    · exact typeByHandles_lc _ _
    · obtain ⟨o, r, rfl⟩ := zipWith_mem hx
      exact typeByHandles_lc _ _
  · show typeByHandles (settled p).a (settled q).b = .line ↔ _
    unfold typeByHandles
    by_cases h : (settled p).a = .colocated ∧ (settled q).b = .colocated
    · rw [if_pos h]
      exact ⟨fun _ => h, fun _ => rfl⟩
    · rw [if_neg h]
      exact ⟨fun e => (nomatch e), fun e => absurd e h⟩

/-- The operations of an open contour: the `MoveTo` is lost if the second point is a line point. -/
theorem intoPenOperations_open {c : Contour PD} {p q : Point PD} {rest : Contour PD} (hc : isOpen c = true)
    (hr : refigure c = p :: q :: rest) (hp : p.ptype = .move) (hl : ∀ x ∈ q :: rest, LC x) :
    intoPenOperations c = .ok ((if q.ptype = .line then [] else [.moveTo (.ofPoint p)]) ++ tailOps p (q :: rest)) := by
  have ho : isOpen (p :: q :: rest) = true := by simp [isOpen, hp]
  have hcl : isClosed c = false := by simp [isClosed, hc]
  unfold intoPenOperations
  simp only [hcl, hr, Bool.false_eq_true, if_false]
  have h2 : 2 ≤ (p :: q :: rest).length := by simp
  have h0 : penStep (p :: q :: rest) [] 0 p = .ok [.moveTo (.ofPoint p)] := by simp [penStep, hp]
  rw [penLoop, h0, Out.bind_ok, penLoop, penStep_open h2 ho _ 1 p q (hl q (List.mem_cons_self ..)) rfl (by omega) rfl (fun _ => by simp), Out.bind_ok,
    penLoop_open h2 ho rest _ 2 q (Nat.le_refl 2) rfl rfl fun x hx => hl x (List.mem_cons_of_mem _ hx)]
  have hn : (p :: q :: rest)[1 + 1]? = rest.head? := by cases rest <;> rfl
  rw [hn]
  cases rest with
  | nil => by_cases hq : q.ptype = .line <;> simp [hq, tailOps]
  | cons y l => by_cases hq : q.ptype = .line <;> simp [hq, tailOps]

/-- Where they take the pen: to points of `l`, and not to the first if it is a curve point and others follow. -/
theorem tailOps_targets (l : List (Point PD)) : ∀ (z x : Point PD) t, t ∈ ((tailOps z (x :: l)).map PenOp.pathEl).filterMap target →
    t ∈ (x :: l).map pos64 ∧ (x.ptype ≠ .line → l ≠ [] → t ∈ l.map pos64) := by
  induction l with
  | nil =>
    intro z x t ht
    refine ⟨?_, fun _ h => absurd rfl h⟩
    unfold tailOps at ht
    have : t = pos64 x := by split at ht <;> exact List.mem_singleton.1 ht
    rw [this]
    exact List.mem_cons_self ..
  | cons y l ih =>
    intro z x t ht
    rw [tailOps, List.map_cons, List.filterMap_cons, target_opOf] at ht
    simp only [List.mem_cons] at ht
    rcases ht with rfl | ht
    · by_cases hx : x.ptype = .line
      · rw [if_pos hx]
        exact ⟨List.mem_cons_self .., fun h => absurd hx h⟩
      · rw [if_neg hx]
        exact ⟨List.mem_cons_of_mem _ (List.mem_cons_self ..), fun _ _ => List.mem_cons_self ..⟩
    · have := (ih x y t ht).1
      exact ⟨List.mem_cons_of_mem _ this, fun _ _ => this⟩

/-- **C36** for open contours whose points are in different places, exactly: all points are visited if and
only if the contour is a single curve. -/
theorem C36_open_exact (p q : Point PD) (rest : Contour PD) (hp : p.ptype = .move)
    (hd : ((p :: q :: rest).map pos64).Nodup) :
    ∃ els, contourIntoKurbo (p :: q :: rest) = .ok els ∧
      (Visits (p :: q :: rest) els ↔ rest = [] ∧ (settle p.a p ≠ .colocated ∨ settle q.b q ≠ .colocated)) := by
  obtain ⟨p', q', rest', hr, hm, hl, hlen, hq⟩ := refigure_open (q := q) (rest := rest) hp
  have ho : isOpen (p :: q :: rest) = true := by simp [isOpen, hp]
  have hk : contourIntoKurbo (p :: q :: rest) = .ok
      (((if q'.ptype = PointType.line then [] else [PenOp.moveTo (.ofPoint p')]) ++ tailOps p' (q' :: rest')).map PenOp.pathEl) := by
    unfold contourIntoKurbo
    rw [intoPenOperations_open ho hr hm hl, Out.bind_ok]
  refine ⟨_, hk, ?_⟩
  have hpos := refigure_pos (p :: q :: rest)
  rw [hr] at hpos
  constructor
  · intro hv
    by_cases h : rest = [] ∧ (settle p.a p ≠ .colocated ∨ settle q.b q ≠ .colocated)
    · exact h
    · exfalso
      unfold Visits at hv
      rw [← hpos] at hv hd
      simp only [List.map_cons, List.nodup_cons] at hd
      rw [List.map_append, List.filterMap_append] at hv
      by_cases hql : q'.ptype = .line
      · rw [if_pos hql] at hv
        have := hv.subset (List.mem_cons_self ..)
        exact hd.1 (tailOps_targets rest' p' q' _ this).1
      · rw [if_neg hql] at hv
        have hne : rest' ≠ [] := by
          intro he
          refine h ⟨List.eq_nil_of_length_eq_zero (by rw [← hlen, he]; rfl), ?_⟩
          by_cases h1 : settle p.a p = .colocated
          · exact Or.inr fun h2 => hql (hq.2 ⟨h1, h2⟩)
          · exact Or.inl h1
        have hin := hv.subset (List.mem_cons_of_mem _ (List.mem_cons_self ..))
        rcases List.mem_append.1 hin with hin | hin
        · have : pos64 q' = pos64 p' := List.mem_singleton.1 hin
          exact hd.1 (this ▸ List.mem_cons_self ..)
        · exact hd.2.1 ((tailOps_targets rest' p' q' _ hin).2 hql hne)
  · rintro ⟨rfl, hc⟩
    obtain ⟨els, h1, h2⟩ := C36_partial_open p q hp hc
    rw [hk] at h1
    cases h1
    exact h2

/-! ## Closed contours -/

theorem inj_of_nodup_map {α β : Type} {f : α → β} : ∀ {l : List α}, (l.map f).Nodup → ∀ {x y}, x ∈ l → y ∈ l → f x = f y → x = y := by
  intro l
  induction l with
  | nil => intro _ x y hx; cases hx
  | cons a l ih =>
    intro hn x y hx hy h
    rw [List.map_cons, List.nodup_cons] at hn
    rcases List.mem_cons.1 hx with ex | hx' <;> rcases List.mem_cons.1 hy with ey | hy'
    · rw [ex, ey]
    · exact absurd (ex ▸ h ▸ List.mem_map_of_mem hy') hn.1
    · exact absurd (ey ▸ h ▸ List.mem_map_of_mem hx') hn.1
    · exact ih hn.2 hx' hy' h

/-- In a list without repetitions a consecutive pair is determined by its second element, and that is not
the first of the list. -/
theorem openPairs_snd {α β : Type} (f : α → β) : ∀ (l : List α), (l.map f).Nodup → ∀ x ∈ l.zip l.tail, ∀ y ∈ l.zip l.tail,
    f x.2 = f y.2 → x = y := by
  intro l
  induction l with
  | nil => intro _ x hx; cases hx
  | cons a l ih =>
    cases l with
    | nil => intro _ x hx; cases hx
    | cons b l =>
      intro hn x hx y hy h
      simp only [List.tail_cons, List.zip_cons_cons, List.mem_cons] at hx hy
      rw [List.map_cons, List.nodup_cons] at hn
      have hb : ∀ z ∈ (b :: l).zip l, f z.2 ≠ f b := by
        intro z hz e
        have hm : z.2 ∈ l := (List.of_mem_zip hz).2
        have := hn.2
        rw [List.map_cons, List.nodup_cons] at this
        exact this.1 (e ▸ List.mem_map_of_mem hm)
      rcases hx with rfl | hx <;> rcases hy with rfl | hy
      · rfl
      · exact absurd h.symm (hb y hy)
      · exact absurd h (hb x hx)
      · exact ih hn.2 x hx y hy h

/-- The pairs of the operations between `MoveTo` and `Close` are consecutive points, or last and first. -/
theorem mem_zip_snoc {α : Type} (l : List α) (e : α) : ∀ (a : α), ∀ x ∈ (a :: l).zip (l ++ [e]),
    x ∈ (a :: l).zip l ∨ x.2 = e := by
  induction l with
  | nil => intro a x hx; right; simp at hx; rw [hx]
  | cons b l ih =>
    intro a x hx
    simp only [List.cons_append, List.zip_cons_cons, List.mem_cons] at hx ⊢
    rcases hx with rfl | hx
    · exact Or.inl (Or.inl rfl)
    · rcases ih b x hx with h | h
      · exact Or.inl (Or.inr h)
      · exact Or.inr h

/-- **C36** for closed contours whose points are in different places, exactly: all points are visited if and
only if (after refiguring, which is part of the conversion) no curve point directly follows a line point,
the first point aside. -/
theorem C36_closed_exact (p q : Point PD) (rest : Contour PD) (hp : p.ptype ≠ .move) (hd : ((p :: q :: rest).map pos64).Nodup) :
    ∃ els, contourIntoKurbo (p :: q :: rest) = .ok els ∧
      (Visits (p :: q :: rest) els ↔ ∀ x ∈ openPairs (refigure (p :: q :: rest)), x.1.ptype = .line → x.2.ptype = .line) := by
  obtain ⟨p', q', rest', hr, hf, hk⟩ := kurbo_closed (closed_of p q rest hp)
  refine ⟨_, hk, ?_⟩
  constructor
  · intro hv x hx hx1
    by_contra hx2
    unfold Visits at hv
    rw [← refigure_pos, hr] at hv hd
    rw [hr] at hx
    unfold openPairs at hx
    have hmem : x.2 ∈ q' :: rest' := (List.of_mem_zip hx).2
    have hin := hv.subset (List.mem_map_of_mem (List.mem_cons_of_mem p' hmem))
    have hnp : pos64 x.2 ≠ pos64 p' := by
      intro e
      rw [List.map_cons, List.nodup_cons] at hd
      exact hd.1 (e ▸ List.mem_map_of_mem hmem)
    -- the target of the operation of a pair is not the point in question
    have key : ∀ y : Point PD × Point PD, (y ∈ (p' :: q' :: rest').zip (q' :: rest') ∨ y.2 = p') → y.1 ∈ p' :: q' :: rest' →
        pos64 x.2 ≠ (if y.1.ptype = .line then pos64 y.1 else pos64 y.2) := by
      intro y hy hy1 e
      by_cases hyl : y.1.ptype = .line
      · rw [if_pos hyl] at e
        have := inj_of_nodup_map hd (List.mem_cons_of_mem p' hmem) hy1 e
        rw [this] at hx2
        exact hx2 hyl
      · rw [if_neg hyl] at e
        rcases hy with hy | hy
        · have := openPairs_snd pos64 _ hd x hx y hy e
          rw [this] at hx1
          exact hyl hx1
        · rw [hy] at e
          exact hnp e
    simp only [List.cons_append, List.filterMap_cons, target, List.filterMap_append, List.filterMap_nil, List.append_nil, List.mem_cons] at hin
    rcases hin with hin | hin
    · exact hnp hin
    · obtain ⟨el, hel, ht⟩ := List.mem_filterMap.1 hin
      obtain ⟨o, ho, rfl⟩ := List.mem_map.1 hel
      unfold midOps at ho
      rcases List.mem_append.1 ho with ho | ho
      · split at ho
        · cases ho
        · rw [List.mem_singleton] at ho
          subst ho
          rw [target_opOf] at ht
          exact key (p', q') (Or.inl (List.mem_cons_self ..)) (List.mem_cons_self ..) (Option.some.inj ht).symm
      · obtain ⟨y, hy, rfl⟩ := List.mem_map.1 ho
        rw [target_opOf] at ht
        refine key y ?_ (List.mem_cons_of_mem _ (List.of_mem_zip hy).1) (Option.some.inj ht).symm
        rcases mem_zip_snoc rest' p' q' y hy with h | h
        · exact Or.inl (List.mem_cons_of_mem _ h)
        · exact Or.inr h
  · intro h
    obtain ⟨els, h1, h2⟩ := C36_partial p q rest hp h
    rw [hk] at h1
    cases h1
    exact h2

/-- Contours with points in different places, closed and open, that meet the hypotheses. -/
example : ((([Sample.pt .line 0 0, Sample.cv 10 0 10 0 5 5, Sample.pt .line 10 10] : Contour Unit)).map pos64).Nodup ∧
    ((([Sample.pt .move 0 0, Sample.pt .line 10 0, Sample.pt .line 10 10] : Contour Unit)).map pos64).Nodup := by
  decide +kernel

/-! ## Every outline (C35) -/

/-- A contour of two or more points is always converted. -/
theorem C35_two (p q : Point PD) (rest : Contour PD) : ∃ els, contourIntoKurbo (p :: q :: rest) = .ok els := by
  by_cases hp : p.ptype = .move
  · obtain ⟨p', q', rest', hr, hm, hl, -, -⟩ := refigure_open (q := q) (rest := rest) hp
    refine ⟨((if q'.ptype = PointType.line then [] else [PenOp.moveTo (.ofPoint p')]) ++ tailOps p' (q' :: rest')).map PenOp.pathEl, ?_⟩
    unfold contourIntoKurbo
    rw [intoPenOperations_open (by simp [isOpen, hp]) hr hm hl, Out.bind_ok]
  · obtain ⟨els, h, -⟩ := C35_well_formed p q rest hp
    exact ⟨els, h⟩

/-- A contour of one point is refused, whatever the point. -/
theorem C35_one (p : Point PD) : contourIntoKurbo [p] = .err (.contourHasBadPointType 0 .offcurve) := by
  unfold contourIntoKurbo intoPenOperations refigure
  simp [isClosed, isOpen, refigureAt, pointTypeForIdx, contourPrevNextHandles, contourPrevNext, prevNext, idxSane]
  rfl

/-- **C35** for every outline: it is always converted, and the path is made of those of its contours, in
order, one-point contours left out. -/
theorem C35_every (o : Outline PD) :
    ∃ els : List (List PathEl), outlineIntoKurbo o = .ok els.flatten ∧
      List.Forall₂ (fun c e => contourIntoKurbo c = .ok e) (o.filter fun c => c.length ≠ 1) els := by
  induction o with
  | nil => exact ⟨[], rfl, .nil⟩
  | cons c o ih =>
    obtain ⟨els, h1, h2⟩ := ih
    match c with
    | [] =>
      refine ⟨[] :: els, ?_, ?_⟩
      · rw [outlineIntoKurbo]
        have : contourIntoKurbo ([] : Contour PD) = .ok [] := rfl
        simp only [this, h1, Out.bind_ok, List.flatten_cons]
      · rw [List.filter_cons_of_pos (by simp)]
        exact .cons rfl h2
    | [p] =>
      refine ⟨els, ?_, ?_⟩
      · rw [outlineIntoKurbo, C35_one]
        exact h1
      · simpa using h2
    | p :: q :: rest =>
      obtain ⟨e, he⟩ := C35_two p q rest
      refine ⟨e :: els, ?_, ?_⟩
      · rw [outlineIntoKurbo, he]
        simp only [h1, Out.bind_ok, List.flatten_cons]
      · rw [List.filter_cons_of_pos (by simp)]
        exact .cons he h2

/-- An outline with a contour that is left out between two that are not. -/
example : ((([[Sample.pt .move 0 0, Sample.pt .line 10 0], [Sample.pt .move 1 1], [Sample.pt .line 0 0, Sample.pt .line 10 0]] :
    Outline Unit)).filter fun c => c.length ≠ 1).length = 2 := by decide +kernel

end GP
