import Verif.Spec.Backwards
import Verif.Props.StartPoint
import Verif.Props.ReverseOutline
/-!
# C149: contours listed backwards in a file
-/
open Fl Fl.Text
namespace GP
variable {PD D : Type}
open Spec

theorem rotated_reverse {α : Type} {l m : List α} (h : Rotated l m) : Rotated l.reverse m.reverse := by
  obtain ⟨s, t, rfl, rfl⟩ := h
  exact ⟨t.reverse, s.reverse, by simp, by simp⟩

theorem ring_reverse {gc : GlifContour} (h : CubicRing gc) : CubicRing gc.reverse := by
  refine ⟨fun p hp => h.types p (List.mem_reverse.1 hp), fun p q r l hl k => ?_⟩
  have := rotated_reverse hl
  rw [List.reverse_reverse] at this
  exact h.two r q p l.reverse (rotated_trans this ⟨l.reverse, [r, q, p], by simp, rfl⟩) ⟨k.2.2, k.2.1, k.1⟩

/-- Off-curve points between two points on the curve are none or two. -/
theorem paired_length {gc u v w : GlifContour} (h : CubicRing gc) (ha : NoneAlone gc) (e : gc = u ++ v ++ w)
    (hv : ∀ o ∈ v, o.ptype = .offcurve) (h1 : ∃ q m, w ++ u = q :: m ∧ q.ptype ≠ .offcurve) (h2 : ∃ q m, w ++ u = m ++ [q] ∧ q.ptype ≠ .offcurve) :
    v = [] ∨ ∃ a b, v = [a, b] := by
  have hl := ring_short h e hv
  rcases v with _ | ⟨o, _ | ⟨p, _ | ⟨q, v⟩⟩⟩
  · exact .inl rfl
  · obtain ⟨q1, m1, e1, k1⟩ := h1
    obtain ⟨q2, m2, e2, k2⟩ := h2
    rcases ha o (w ++ u) ⟨u, o :: w, by rw [e]; simp, by simp⟩ (hv o (by simp)) with ⟨q, m, e', k⟩ | ⟨q, m, e', k⟩
    · rw [e1] at e'; exact absurd ((List.cons.inj e').1 ▸ k) k1
    · rw [e2] at e'; exact absurd ((List.append_inj' e' rfl).2 |> List.cons.inj |>.1 ▸ k) k2
  · exact .inr ⟨o, p, rfl⟩
  · simp at hl

theorem segments_end (g : GlifPoint) (hg : g.ptype ≠ .offcurve) (A : GSegs) (hA : ∀ s ∈ A, s.2.ptype ≠ .offcurve) :
    ∃ q m, g :: A.flatMap (fun s => s.1 ++ [s.2]) = m ++ [q] ∧ q.ptype ≠ .offcurve := by
  rcases List.eq_nil_or_concat A with rfl | ⟨A, s, rfl⟩
  · exact ⟨g, [], rfl, hg⟩
  · exact ⟨s.2, g :: A.flatMap (fun s => s.1 ++ [s.2]) ++ s.1, by simp, hA s (by simp)⟩

theorem paired_segments {g : GlifPoint} {gs : GSegs} {back : List GlifPoint}
    (h : CubicRing (g :: gs.flatMap (fun s => s.1 ++ [s.2]) ++ back)) (ha : NoneAlone (g :: gs.flatMap (fun s => s.1 ++ [s.2]) ++ back))
    (hg : g.ptype ≠ .offcurve) (hs : ∀ s ∈ gs, (∀ o ∈ s.1, o.ptype = .offcurve) ∧ s.2.ptype ≠ .offcurve) (hb : ∀ o ∈ back, o.ptype = .offcurve) :
    (∀ s ∈ gs, s.1 = [] ∨ ∃ a b, s.1 = [a, b]) ∧ (back = [] ∨ ∃ a b, back = [a, b]) := by
  constructor
  · intro s hm
    obtain ⟨A, B, rfl⟩ := List.append_of_mem hm
    obtain ⟨q, m, e, k⟩ := segments_end g hg A (fun t ht => (hs t (by simp [ht])).2)
    refine paired_length h ha (u := g :: A.flatMap (fun s => s.1 ++ [s.2])) (w := s.2 :: B.flatMap (fun s => s.1 ++ [s.2]) ++ back) (by simp)
      (hs s hm).1 ⟨_, _, rfl, (hs s hm).2⟩ ⟨q, s.2 :: B.flatMap (fun s => s.1 ++ [s.2]) ++ back ++ m, ?_, k⟩
    rw [e]; simp
  · obtain ⟨q, m, e, k⟩ := segments_end g hg gs (fun t ht => (hs t ht).2)
    exact paired_length h ha (u := g :: gs.flatMap (fun s => s.1 ++ [s.2])) (w := []) (by simp) hb ⟨_, _, rfl, hg⟩ ⟨q, m, by simpa using e, k⟩

/-- Points from `g` on, the other way round. -/
theorem curvesOf_reverse (gs : GSegs) (b : Option GlifPoint) (g : GlifPoint) (back x : List GlifPoint) (hx : x[0]? = b)
    (hg : g.ptype ≠ .offcurve) (hs : ∀ s ∈ gs, (∀ o ∈ s.1, o.ptype = .offcurve) ∧ s.2.ptype ≠ .offcurve)
    (hp : ∀ s ∈ gs, s.1 = [] ∨ ∃ a b, s.1 = [a, b]) :
    ∃ (h : GlifPoint) (S : GSegs), (curvesOf b g gs back : Contour PD).reverse.map swapped = curvesOf back[0]? h S x ∧
      (g :: gs.flatMap (fun s => s.1 ++ [s.2])).reverse = h :: S.flatMap (fun s => s.1 ++ [s.2]) ∧ h.ptype ≠ .offcurve ∧
      ∀ s ∈ S, (∀ o ∈ s.1, o.ptype = .offcurve) ∧ s.2.ptype ≠ .offcurve := by
  induction gs generalizing b g x with
  | nil => subst hx; exact ⟨g, [], rfl, rfl, hg, by simp⟩
  | cons s gs ih =>
    obtain ⟨offs, g'⟩ := s
    have ho := hs (offs, g') List.mem_cons_self
    have hpo := hp (offs, g') List.mem_cons_self
    have r0 : offs.reverse[0]? = offs[1]? := by rcases hpo with e | ⟨a, b, e⟩ <;> simp only at e <;> subst e <;> rfl
    have r1 : offs.reverse[1]? = offs[0]? := by rcases hpo with e | ⟨a, b, e⟩ <;> simp only at e <;> subst e <;> rfl
    obtain ⟨h, S, e1, e2, hh, hS⟩ := ih offs[1]? g' offs.reverse r0 ho.2 (fun s hm => hs s (List.mem_cons_of_mem _ hm))
      (fun s hm => hp s (List.mem_cons_of_mem _ hm))
    refine ⟨h, S ++ [(offs.reverse, g)], ?_, ?_, hh, ?_⟩
    · rw [curvesOf, List.reverse_cons, List.map_append, e1, curvesOf_append, r1]
      subst hx
      rfl
    · rw [List.flatMap_cons, List.append_assoc, List.singleton_append, List.reverse_cons, List.reverse_append, e2]
      simp
    · intro s hm
      rcases List.mem_append.1 hm with hm | hm
      · exact hS s hm
      · rw [List.mem_singleton.1 hm]
        exact ⟨fun o hm => ho.1 o (List.mem_reverse.1 hm), hg⟩

theorem read_backwards (mid : IOF → IOF → IOF) (g : GlifPoint) (l : List GlifPoint) (h : CubicRing (g :: l)) (ha : NoneAlone (g :: l))
    (hg : g.ptype ≠ .offcurve) :
    ∃ (p : Point PD) (rest : Contour PD), contourOfGlif mid (g :: l) = .ok (p :: rest) ∧ p.ptype = g.ptype ∧
      contourOfGlif mid (g :: l.reverse) = .ok (swapped p :: rest.reverse.map swapped) := by
  have h' : CubicRing (g :: l.reverse) := ring_rotated (ring_reverse h) ⟨l.reverse, [g], by simp, rfl⟩
  obtain ⟨gs, back, rfl, hs, hb⟩ := point_segments l
  rw [← List.cons_append] at h ha
  obtain ⟨hp, hpb⟩ := paired_segments h ha hg hs hb
  have r0 : back.reverse[0]? = back[1]? := by rcases hpb with e | ⟨a, b, e⟩ <;> subst e <;> rfl
  have r1 : back.reverse[1]? = back[0]? := by rcases hpb with e | ⟨a, b, e⟩ <;> subst e <;> rfl
  have hb' : ∀ o ∈ back.reverse, o.ptype = .offcurve := fun o hm => hb o (List.mem_reverse.1 hm)
  have e := contourOfGlif_cubic (PD := PD) mid g gs back h hg hs hb
  cases gs with
  | nil =>
    refine ⟨_, [], e, rfl, ?_⟩
    have := contourOfGlif_cubic (PD := PD) mid g [] back.reverse (by simpa using h') hg (by simp) hb'
    rw [r1] at this
    simp only [curvesOf, r0, List.flatMap_nil] at this
    exact this
  | cons s gs =>
    obtain ⟨offs, g'⟩ := s
    have ho := hs (offs, g') List.mem_cons_self
    have hpo := hp (offs, g') List.mem_cons_self
    have q0 : offs.reverse[0]? = offs[1]? := by rcases hpo with e | ⟨a, b, e⟩ <;> simp only at e <;> subst e <;> rfl
    have q1 : offs.reverse[1]? = offs[0]? := by rcases hpo with e | ⟨a, b, e⟩ <;> simp only at e <;> subst e <;> rfl
    obtain ⟨k, S, e1, e2, hk, hS⟩ := curvesOf_reverse (PD := PD) gs offs[1]? g' back offs.reverse q0 ho.2 (fun s hm => hs s (List.mem_cons_of_mem _ hm))
      (fun s hm => hp s (List.mem_cons_of_mem _ hm))
    refine ⟨_, _, e, rfl, ?_⟩
    have f : g :: (((offs, g') :: gs).flatMap (fun s => s.1 ++ [s.2]) ++ back).reverse =
        g :: ((back.reverse, k) :: S).flatMap (fun s => s.1 ++ [s.2]) ++ offs.reverse := by
      rw [List.flatMap_cons, List.reverse_append, List.append_assoc, List.singleton_append, List.reverse_append, e2]
      simp
    rw [f] at h' ⊢
    rw [contourOfGlif_cubic mid g ((back.reverse, k) :: S) offs.reverse h' hg ?_ (fun o hm => ho.1 o (List.mem_reverse.1 hm)), e1, q1]
    · simp only [curvesOf, r0, r1]
      rfl
    · intro s hm
      rcases List.mem_cons.1 hm with rfl | hm
      · exact ⟨hb', hk⟩
      · exact hS s hm

/-- **C149**, as far as it holds: a closed contour of lines and cubic curves with two control points, listed backwards in the file, is
read as the reversed contour, from some point on. -/
theorem C149_partial (mid : IOF → IOF → IOF) (gc gc' : GlifContour) (h : CubicRing gc) (ha : NoneAlone gc) (hr : Rotated gc.reverse gc')
    (h1 : StartsOn gc) (h2 : StartsOn gc') :
    ∃ d r d' : Contour PD, contourOfGlif mid gc = .ok d ∧ toReversed d = .ok r ∧ contourOfGlif mid gc' = .ok d' ∧ Rotated r d' ∧ d' ≠ [] := by
  obtain ⟨g, l, rfl, hg⟩ := h1
  obtain ⟨p, rest, e1, hp, e2⟩ := read_backwards (PD := PD) mid g l h ha hg
  have hm : p.ptype ≠ .move := by
    rw [hp]
    rcases h.types g List.mem_cons_self with e | e | e <;> simp [e]
  have hr' : Rotated (g :: l.reverse) gc' := rotated_trans ⟨[g], l.reverse, rfl, rfl⟩ (by rwa [List.reverse_cons] at hr)
  have h' : CubicRing (g :: l.reverse) := ring_rotated (ring_reverse h) ⟨l.reverse, [g], by simp, rfl⟩
  obtain ⟨r, d', f1, f2, -, f3⟩ := C148_partial (PD := PD) mid _ gc' h' hr' ⟨g, _, rfl, hg⟩ h2
  rw [e2] at f1
  cases f1
  refine ⟨_, _, d', e1, C27_closed p rest hm, f2, f3, ?_⟩
  rintro rfl
  have := rotated_length f3
  simp at this

/-- **C149.** So its segments are drawn backwards. -/
theorem C149_drawn (mid : IOF → IOF → IOF) (gc gc' : GlifContour) (h : CubicRing gc) (ha : NoneAlone gc) (hr : Rotated gc.reverse gc')
    (h1 : StartsOn gc) (h2 : StartsOn gc') :
    ∃ d d' : Contour PD, contourOfGlif mid gc = .ok d ∧ contourOfGlif mid gc' = .ok d' ∧ DrawsBackwards d d' := by
  obtain ⟨d, r, d', e1, e2, e3, hrot, -⟩ := C149_partial (PD := PD) mid gc gc' h ha hr h1 h2
  refine ⟨d, d', e1, e3, ?_⟩
  obtain ⟨c, -, k, -, k2, -⟩ := C148_drawn (PD := PD) mid gc gc h (rotated_self _) h1 h1
  rw [e1] at k
  cases k
  cases d with
  | nil => cases e2
  | cons p rest =>
    have hm : p.ptype ≠ .move := by simpa [openContour] using k2
    obtain ⟨s, t, a, b⟩ := rotated_of_map segment (closedPairs_rotated hrot)
    exact ⟨s, t, by rw [← C29_polygons_closed p rest hm r e2]; exact a, b⟩

/-! ## Quadratic curves -/

theorem offsOf_cons (mid : IOF → IOF → IOF) (g h : GlifPoint) (l : List GlifPoint) :
    (offsOf mid (g :: h :: l) : Contour PD) = Point.ofGp g :: impliedOf mid g h :: offsOf mid (h :: l) := rfl

theorem offsOf_concat (mid : IOF → IOF → IOF) (l : List GlifPoint) (g h : GlifPoint) :
    (offsOf mid (l ++ [g, h]) : Contour PD) = offsOf mid (l ++ [g]) ++ [impliedOf mid g h, Point.ofGp h] := by
  induction l with
  | nil => rfl
  | cons a l ih =>
    cases l with
    | nil => rfl
    | cons b l =>
      rw [List.cons_append, List.cons_append, offsOf_cons, ← List.cons_append, ih]
      rfl

theorem offsOf_reverse (mid : IOF → IOF → IOF) (hm : ∀ a b, mid a b = mid b a) (l : List GlifPoint) (hn : ∀ o ∈ l, o.name = none) :
    (offsOf mid l.reverse : Contour PD) = (offsOf mid l).reverse := by
  induction l with
  | nil => rfl
  | cons g l ih =>
    cases l with
    | nil => rfl
    | cons h l =>
      have e : impliedOf (PD := PD) mid h g = impliedOf mid g h := by
        unfold impliedOf
        rw [hm h.x g.x, hm h.y g.y, hn g (by simp), hn h (by simp)]
      have := ih fun o ho => hn o (List.mem_cons_of_mem _ ho)
      rw [List.reverse_cons] at this
      rw [offsOf_cons, List.reverse_cons, List.reverse_cons, List.append_assoc, List.singleton_append, offsOf_concat, this, e]
      simp

theorem quadratic_reverse (mid : IOF → IOF → IOF) (hm : ∀ a b, mid a b = mid b a) (gs : GSegs) (g : GlifPoint) (hg : g.ptype ≠ .offcurve)
    (hs : ∀ s ∈ gs, (∀ o ∈ s.1, o.ptype = .offcurve) ∧ s.2.ptype ≠ .offcurve) (hn : ∀ s ∈ gs, ∀ o ∈ s.1, o.name = none) :
    ∃ (h : GlifPoint) (S : GSegs), (g :: gs.flatMap (fun s => s.1 ++ [s.2])).reverse = h :: S.flatMap (fun s => s.1 ++ [s.2]) ∧
      (Point.ofGp (PD := PD) g :: gs.flatMap (fun s => offsOf mid s.1 ++ [Point.ofGp s.2])).reverse =
        Point.ofGp h :: S.flatMap (fun s => offsOf mid s.1 ++ [Point.ofGp s.2]) ∧ h.ptype ≠ .offcurve ∧
      ∀ s ∈ S, (∀ o ∈ s.1, o.ptype = .offcurve) ∧ s.2.ptype ≠ .offcurve := by
  induction gs generalizing g with
  | nil => exact ⟨g, [], rfl, rfl, hg, by simp⟩
  | cons s gs ih =>
    obtain ⟨offs, g'⟩ := s
    have ho := hs (offs, g') List.mem_cons_self
    obtain ⟨h, S, e1, e2, hh, hS⟩ := ih g' ho.2 (fun s hm => hs s (List.mem_cons_of_mem _ hm)) (fun s hm => hn s (List.mem_cons_of_mem _ hm))
    refine ⟨h, S ++ [(offs.reverse, g)], ?_, ?_, hh, ?_⟩
    · rw [List.flatMap_cons, List.append_assoc, List.singleton_append, List.reverse_cons, List.reverse_append, e1]
      simp
    · rw [List.flatMap_cons, List.append_assoc, List.singleton_append, List.reverse_cons, List.reverse_append, e2,
        ← offsOf_reverse mid hm offs (hn (offs, g') List.mem_cons_self)]
      simp
    · intro s hm
      rcases List.mem_append.1 hm with hm | hm
      · exact hS s hm
      · rw [List.mem_singleton.1 hm]
        exact ⟨fun o hm => ho.1 o (List.mem_reverse.1 hm), hg⟩

theorem contourOfGlif_quadratic (mid : IOF → IOF → IOF) (g : GlifPoint) (gs : GSegs) (h : QuadraticRing (g :: gs.flatMap (fun s => s.1 ++ [s.2])))
    (hg : g.ptype ≠ .offcurve) (hs : ∀ s ∈ gs, (∀ o ∈ s.1, o.ptype = .offcurve) ∧ s.2.ptype ≠ .offcurve) :
    contourOfGlif (PD := PD) mid (g :: gs.flatMap (fun s => s.1 ++ [s.2])) =
      .ok (Point.ofGp g :: gs.flatMap (fun s => offsOf mid s.1 ++ [Point.ofGp s.2])) := by
  have e := quadraticContour_eq (PD := PD) mid g gs [] hg hs (by simp)
  rw [backOf, List.append_nil, List.append_nil] at e
  rw [← e, contourOfGlif]
  rcases h g List.mem_cons_self with k | k
  · simp only [k]
  · exact absurd k hg

theorem swapped_ofGp (g : GlifPoint) : swapped (Point.ofGp (PD := PD) g) = Point.ofGp g := rfl

theorem swapped_offs (mid : IOF → IOF → IOF) (l : List GlifPoint) : (offsOf mid l : Contour PD).map swapped = offsOf mid l := by
  cases l with
  | nil => rfl
  | cons g l =>
    induction l generalizing g with
    | nil => rfl
    | cons h l ih => rw [offsOf_cons, List.map_cons, List.map_cons, ih]; rfl

/-- **C149** for quadratic contours that begin and end with points on the curve and whose off-curve points have no names. -/
theorem C149_quadratic (mid : IOF → IOF → IOF) (hm : ∀ a b, mid a b = mid b a) (gc gc' : GlifContour) (h : QuadraticRing gc)
    (hn : ∀ p ∈ gc, p.ptype = .offcurve → p.name = none) (hr : Rotated gc.reverse gc') (h1 : StartsOn gc) (h1' : StopsOn gc)
    (h2 : StartsOn gc') (h2' : StopsOn gc') :
    ∃ d r d' : Contour PD, contourOfGlif mid gc = .ok d ∧ toReversed d = .ok r ∧ contourOfGlif mid gc' = .ok d' ∧ Rotated r d' := by
  have hq : QuadraticRing gc.reverse := fun p hp => h p (List.mem_reverse.1 hp)
  have b1 : StartsOn gc.reverse := by obtain ⟨g, l, rfl, k⟩ := h1'; exact ⟨g, l.reverse, by simp, k⟩
  have b2 : StopsOn gc.reverse := by obtain ⟨g, l, rfl, k⟩ := h1; exact ⟨g, l.reverse, by simp, k⟩
  obtain ⟨e, d', f1, f2, f3⟩ := C148_quadratic (PD := PD) mid gc.reverse gc' hq hr b1 h2
  have f4 := f3.2 (.inl ⟨b2, h2'⟩)
  obtain ⟨g, l, rfl, hg⟩ := h1
  obtain ⟨gs, back, rfl, hs, hb⟩ := point_segments l
  have : back = [] := by
    rcases List.eq_nil_or_concat back with rfl | ⟨m, o, rfl⟩
    · rfl
    · obtain ⟨q, n, e, k⟩ := h1'
      have e' : (g :: (gs.flatMap (fun s => s.1 ++ [s.2]) ++ m)) ++ [o] = n ++ [q] := by rw [← e]; simp
      have : o = q := by simpa using (List.append_inj' e' rfl).2
      exact absurd (this ▸ hb o (by simp)) k
  subst this
  rw [List.append_nil] at *
  obtain ⟨k, S, e1, e2, hk, hS⟩ := quadratic_reverse (PD := PD) mid hm gs g hg hs fun s hm o ho =>
    hn o (List.mem_cons_of_mem _ (List.mem_flatMap.2 ⟨s, hm, by simp [ho]⟩)) ((hs s hm).1 o ho)
  rw [e1] at hq f1
  rw [contourOfGlif_quadratic mid k S hq hk hS, ← e2] at f1
  cases f1
  have hp : (Point.ofGp (PD := PD) g).ptype ≠ .move := by
    show g.ptype ≠ .move
    rcases h g List.mem_cons_self with e | e <;> simp [e]
  refine ⟨_, _, d', contourOfGlif_quadratic mid g gs h hg hs, C27_closed _ _ hp, f2, rotated_trans ?_ f4⟩
  refine ⟨[Point.ofGp g], (gs.flatMap (fun s => offsOf mid s.1 ++ [Point.ofGp s.2])).reverse, ?_, by simp⟩
  rw [swapped_ofGp, List.map_reverse, List.singleton_append]
  congr 2
  rw [List.map_flatMap]
  congr 1
  funext s
  rw [List.map_append, swapped_offs]
  rfl

/-! ## Documents -/

theorem alone_read {es : List Element} {gc : GlifContour} (h : NoneAloneElements es) (hr : List.Forall₂ (fun e g => readPoint e = .ok g) es gc) :
    NoneAlone gc := by
  intro o l hl ho
  obtain ⟨es', h1, h2⟩ := rotated_forall₂ hr hl
  cases h2 with
  | cons a h2 =>
    rcases h _ _ h1 ((readPoint_type a).2.2.2.2.1.1 ho) with ⟨q, m, rfl, k⟩ | ⟨q, m, rfl, k⟩
    · cases h2 with
      | cons b h2 => exact .inl ⟨_, _, rfl, (readPoint_type b).2.2.2.2.1.2 k⟩
    · obtain ⟨m', q', f1, f2, rfl⟩ := forall₂_split h2
      cases f2 with
      | cons b f2 => cases f2; exact .inr ⟨_, _, rfl, (readPoint_type b).2.2.2.2.1.2 k⟩

theorem backwards_one {mid : IOF → IOF → IOF} {pio : PlistIO D} {ped : Pedantry} {root : Element} {pre post : List Node}
    {attrs : List (String × Str)} {x y : Node} (hpre : named "outline" pre = []) (h : ListedBackwards x y) {gx : Glif PD D}
    (hx : readGlif mid pio ped (withOutline root pre post attrs [x]) = .ok gx) :
    ∃ (gy : Glif PD D) (o : Outline PD), readGlif mid pio ped (withOutline root pre post attrs [y]) = .ok gy ∧
      gy.components.vec = gx.components.vec ∧ EachReversed (gx.outline.getD []) o ∧ List.Forall₂ Rotated o (gy.outline.getD []) := by
  rcases h with ⟨rfl, hn⟩ | ⟨a, b, cs, ds, rfl, rfl, hr, hc, hal, h1, h2⟩
  · refine ⟨gx, [], hx, rfl, ?_⟩
    have : gx.outline.getD [] = [] := by
      obtain ⟨p, out, t1, t2, t3, k1, k2, k3, k4, k5, k6, k7, rfl⟩ := (readGlif_ok_iff mid pio ped _ gx).1 hx
      have nX := named_withOutline root pre post attrs [x] hpre
      have n1 : named "contour" [x] = [] := by
        cases x with
        | elem n a cs =>
          have : n ≠ "contour" := fun e => hn a cs (by rw [e])
          simp [named, this]
        | _ => rfl
      rw [nX.1, readOpt, readOutline_eq, readOutlineBy, n1] at k6
      obtain ⟨r, hr', k6⟩ := bind_eq_ok.1 k6
      have k6 : p.outline = some r := (Out.ok.inj k6).symm
      obtain ⟨c, hc, hr'⟩ := bind_eq_ok.1 hr'
      cases hc
      obtain ⟨ks, hk, hr'⟩ := bind_eq_ok.1 hr'
      cases hr'
      rw [k6] at k7
      cases k7
      unfold glifOf
      dsimp only
      split <;> rfl
    rw [this]
    exact ⟨.nil, .nil⟩
  obtain ⟨p, out, t1, t2, t3, k1, k2, k3, k4, k5, k6, k7, rfl⟩ := (readGlif_ok_iff mid pio ped _ gx).1 hx
  have nX := named_withOutline root pre post attrs [.elem "contour" a cs] hpre
  have nY := named_withOutline root pre post attrs [.elem "contour" b ds] hpre
  have one : ∀ a cs, readOutline ⟨"outline", attrs, [.elem "contour" a cs]⟩ =
      (Out.mapM' readPoint (named "point" cs) >>= fun gc => .ok ([gc].filter (fun c => !c.isEmpty), [])) := by
    intro a cs
    have n1 : named "contour" [.elem "contour" a cs] = [⟨"contour", a, cs⟩] := rfl
    have n2 : named "component" [.elem "contour" a cs] = [] := rfl
    rw [readOutline_eq, readOutlineBy, n1, n2, Out.mapM'_cons, readContour_eq]
    cases Out.mapM' readPoint (named "point" cs) <;> rfl
  have full : ∀ gc : GlifContour, StartsOn gc → [gc].filter (fun c => !c.isEmpty) = [gc] := by
    rintro _ ⟨g, l, rfl, -⟩
    rfl
  rw [nX.1, readOpt, one] at k6
  obtain ⟨r, hr', k6⟩ := bind_eq_ok.1 k6
  have k6 : p.outline = some r := (Out.ok.inj k6).symm
  obtain ⟨gc, hgc, hr'⟩ := bind_eq_ok.1 hr'
  have hf := (mapM'_ok_iff _ _).1 hgc
  have s1 := startsOn_read h1 hf
  rw [full gc s1] at hr'
  cases hr'
  obtain ⟨u, v, e1, e2⟩ := hr
  have hf' := List.forall₂_reverse_iff.2 hf
  rw [e1] at hf'
  obtain ⟨gu, gv, fu, fv, e3⟩ := forall₂_split hf'
  have fds : List.Forall₂ (fun e g => readPoint e = .ok g) (named "point" ds) (gv ++ gu) := by rw [e2]; exact List.rel_append fv fu
  have s2 := startsOn_read h2 fds
  obtain ⟨d, r, d', c1, cr, c2, hrot, hd'⟩ := C149_partial (PD := PD) mid _ (gv ++ gu) (ring_read hc hf) (alone_read hal hf) ⟨gu, gv, e3, rfl⟩ s1 s2
  have hd : d ≠ [] := by rintro rfl; cases cr
  rw [k6] at k7
  have k7 : outlineOfGlif mid [gc] = .ok out := k7
  rw [outline_one c1 hd] at k7
  cases k7
  have kids : ∀ n, n ≠ "outline" → named n (withOutline root pre post attrs [.elem "contour" b ds]).children =
      named n (withOutline root pre post attrs [.elem "contour" a cs]).children := fun n hn => by rw [nX.2 n hn, nY.2 n hn]
  refine ⟨_, [r], (readGlif_ok_iff mid pio ped _ _).2 ⟨{ p with outline := some ([gv ++ gu], []) }, [d'], t1, t2, t3, ?_, ?_, ?_, ?_, ?_, ?_,
    outline_one c2 hd', rfl⟩, ?_, ?_, ?_⟩
  · rw [kids _ (by decide)]; exact k1
  · rw [kids _ (by decide)]; exact k2
  · rw [kids _ (by decide)]; exact k3
  · rw [kids _ (by decide)]; exact k4
  · rw [kids _ (by decide)]; exact k5
  · rw [nY.1, readOpt, one, (mapM'_ok_iff _ _).2 fds, Out.bind_ok, full _ s2]; rfl
  · unfold glifOf; rw [k6]; rfl
  · unfold glifOf; rw [k6]; exact .cons cr .nil
  · unfold glifOf; exact .cons hrot .nil

/-- **C149** for documents: if all contours of a document are closed contours of lines and cubic curves and are listed backwards, the
same glyph is read with its outline reversed, each contour from some point on. -/
theorem C149_document (mid : IOF → IOF → IOF) (pio : PlistIO D) (ped : Pedantry) (root : Element) (pre post : List Node)
    (attrs : List (String × Str)) (xs ys : List Node) (hpre : named "outline" pre = []) (h : List.Forall₂ ListedBackwards xs ys) (g : Glif PD D)
    (hg : readGlif mid pio ped (withOutline root pre post attrs xs) = .ok g) :
    ∃ (g' : Glif PD D) (o : Outline PD), readGlif mid pio ped (withOutline root pre post attrs ys) = .ok g' ∧
      (∀ o ks, holding g' o ks = holding g o ks) ∧ g'.components = g.components ∧ outlineToReversed (g.outline.getD []) = .ok o ∧
      List.Forall₂ Rotated o (g'.outline.getD []) := by
  obtain ⟨g₀, gs, h0, hgs, rfl⟩ := (C146_each mid pio ped root pre post attrs xs hpre g).1 hg
  obtain ⟨hs, o, e1, e2, e3, e4⟩ : ∃ (hs : List (Glif PD D)) (o : Outline PD),
      List.Forall₂ (fun x gx => readGlif mid pio ped (withOutline root pre post attrs [x]) = .ok gx) ys hs ∧
      (hs.flatMap fun gx => gx.components.vec) = (gs.flatMap fun gx => gx.components.vec) ∧
      EachReversed (gs.flatMap fun gx => gx.outline.getD []) o ∧ List.Forall₂ Rotated o (hs.flatMap fun gx => gx.outline.getD []) := by
    clear hg
    induction h generalizing gs with
    | nil => cases hgs; exact ⟨[], [], .nil, rfl, .nil, .nil⟩
    | cons hxy _ ih =>
      cases hgs with
      | cons hx hgs =>
        obtain ⟨hs, o, a1, a2, a3, a4⟩ := ih _ hgs
        obtain ⟨gy, o', b1, b2, b3, b4⟩ := backwards_one hpre hxy hx
        refine ⟨gy :: hs, o' ++ o, .cons b1 a1, ?_, ?_, ?_⟩
        · rw [List.flatMap_cons, List.flatMap_cons, a2, b2]
        · rw [List.flatMap_cons]; exact List.rel_append b3 a3
        · rw [List.flatMap_cons]; exact List.rel_append b4 a4
  obtain ⟨z1, -⟩ := read_emptyOutline hpre h0
  refine ⟨_, o, (C146_each mid pio ped root pre post attrs ys hpre _).2 ⟨g₀, hs, h0, e1, rfl⟩, fun _ _ => rfl, ?_, ?_, ?_⟩
  · simp only [withMore, e2]
  · rw [withMore_outline, z1, Option.getD_none, List.nil_append]
    exact ((C123_contours _).1 _).2 e3
  · rw [withMore_outline, z1, Option.getD_none, List.nil_append]
    exact e4

/-- **C149 is false of the code**: the single control point of a curve becomes the handle of the point before it, so that listed backwards
it is the handle of another point than after reversing. -/
theorem C149_false (mid : IOF → IOF → IOF) :
    ∃ (gc gc' : GlifContour) (d r d' : Contour PD), CubicRing gc ∧ gc' = gc.reverse ∧ StartsOn gc ∧ StartsOn gc' ∧
      contourOfGlif mid gc = .ok d ∧ toReversed d = .ok r ∧ contourOfGlif mid gc' = .ok d' ∧ ¬ Rotated r d' ∧ ¬ DrawsBackwards d d' := by
  refine ⟨[Sample.gp .curve 0 0, Sample.gp .offcurve 4 0, Sample.gp .curve 4 4], _,
    [withHandles none (Sample.gp .curve 0 0) (some (Sample.gp .offcurve 4 0)), withHandles none (Sample.gp .curve 4 4) none],
    [withHandles (some (Sample.gp .offcurve 4 0)) (Sample.gp .curve 0 0) none, withHandles none (Sample.gp .curve 4 4) none],
    [withHandles none (Sample.gp .curve 4 4) (some (Sample.gp .offcurve 4 0)), withHandles none (Sample.gp .curve 0 0) none],
    ⟨by simp [Sample.gp], ?_⟩, rfl, ⟨_, _, rfl, by simp [Sample.gp]⟩, ⟨_, _, rfl, by simp [Sample.gp]⟩, rfl, rfl, rfl, ?_, ?_⟩
  · intro p q r l h
    rcases rotated_three h with e | e | e <;> obtain ⟨rfl, rfl, rfl, rfl⟩ : p = _ ∧ q = _ ∧ r = _ ∧ l = _ := by simpa using e
    all_goals simp [Sample.gp]
  · intro h
    rcases List.mem_cons.1 (rotated_mem h List.mem_cons_self) with e | e
    · cases congrArg Point.a e
    · cases congrArg Point.a (List.mem_singleton.1 e)
  · intro h
    have k := rotated_mem (x := ((Sample.f 4, Sample.f 4), (Sample.f 4, Sample.f 0), (Sample.f 0, Sample.f 0), (Sample.f 0, Sample.f 0))) h
      List.mem_cons_self
    change ((Sample.f 4, Sample.f 4), (Sample.f 4, Sample.f 0), (Sample.f 0, Sample.f 0), (Sample.f 0, Sample.f 0)) ∈
      [((Sample.f 0, Sample.f 0), (Sample.f 0, Sample.f 0), (Sample.f 4, Sample.f 4), (Sample.f 4, Sample.f 4)),
        ((Sample.f 4, Sample.f 4), (Sample.f 4, Sample.f 4), (Sample.f 4, Sample.f 0), (Sample.f 0, Sample.f 0))] at k
    revert k
    decide +kernel

/-- A closed contour of two lines and a curve, and its points listed backwards. -/
example : let a := Sample.gp .line 0 0
    let b := Sample.gp .line 4 0
    let c := Sample.gp .curve 4 4
    let o := Sample.gp .offcurve 5 1
    let p := Sample.gp .offcurve 5 3
    NoneAlone [a, b, o, p, c] ∧ Rotated [a, b, o, p, c].reverse [a, c, p, o, b] ∧ StartsOn [a, b, o, p, c] ∧ StartsOn [a, c, p, o, b] := by
  intro a b c o p
  refine ⟨?_, ⟨[c, p, o, b], [a], rfl, rfl⟩, ⟨_, _, rfl, by simp [a, Sample.gp]⟩, ⟨_, _, rfl, by simp [a, Sample.gp]⟩⟩
  rintro x l ⟨s, t, e1, e2⟩ hx
  rcases s with _ | ⟨s1, _ | ⟨s2, _ | ⟨s3, _ | ⟨s4, _ | ⟨s5, s⟩⟩⟩⟩⟩ <;> simp at e1
  · subst e1; simp at e2; obtain ⟨rfl, rfl⟩ := e2; simp [a, Sample.gp] at hx
  · obtain ⟨rfl, rfl⟩ := e1; simp at e2; obtain ⟨rfl, rfl⟩ := e2; simp [b, Sample.gp] at hx
  · obtain ⟨rfl, rfl, rfl⟩ := e1; simp at e2; obtain ⟨rfl, rfl⟩ := e2; exact .inl ⟨_, _, rfl, rfl⟩
  · obtain ⟨rfl, rfl, rfl, rfl⟩ := e1; simp at e2; obtain ⟨rfl, rfl⟩ := e2; exact .inr ⟨o, [c, a, b], rfl, rfl⟩
  · obtain ⟨rfl, rfl, rfl, rfl, rfl⟩ := e1; simp at e2; obtain ⟨rfl, rfl⟩ := e2; simp [c, Sample.gp] at hx
  · obtain ⟨rfl, rfl, rfl, rfl, rfl, rfl, rfl⟩ := e1; simp at e2; obtain ⟨rfl, rfl⟩ := e2; simp [a, Sample.gp] at hx

/-- Two quadratic curves, one with an implied point, and the same backwards from another point on. -/
example : let a := Sample.gp .qcurve 0 0
    let b := Sample.gp .qcurve 4 0
    let c := Sample.gp .qcurve 4 4
    let o := Sample.gp .offcurve 1 1
    let p := Sample.gp .offcurve 3 1
    QuadraticRing [a, o, p, b, c] ∧ (∀ x ∈ [a, o, p, b, c], x.ptype = .offcurve → x.name = none) ∧ Rotated [a, o, p, b, c].reverse [b, p, o, a, c] ∧
      StartsOn [a, o, p, b, c] ∧ StopsOn [a, o, p, b, c] ∧ StartsOn [b, p, o, a, c] ∧ StopsOn [b, p, o, a, c] := by
  intro a b c o p
  exact ⟨by simp [QuadraticRing, a, b, c, o, p, Sample.gp], by simp [a, b, c, o, p, Sample.gp], ⟨[c], [b, p, o, a], rfl, rfl⟩,
    ⟨_, _, rfl, by simp [a, Sample.gp]⟩, ⟨c, [a, o, p, b], rfl, by simp [c, Sample.gp]⟩, ⟨_, _, rfl, by simp [b, Sample.gp]⟩,
    ⟨c, [b, p, o, a], rfl, by simp [c, Sample.gp]⟩⟩

/-- A document with a component and a contour listed backwards. -/
example : List.Forall₂ ListedBackwards [.elem "component" [("base", "a".toList)] [],
      .elem "contour" [] [Sample.pe "line" "0" "0", Sample.pe "line" "4" "0", Sample.pe "curve" "4" "4"]]
    [.elem "component" [("base", "a".toList)] [], .elem "contour" [] [Sample.pe "line" "0" "0", Sample.pe "curve" "4" "4", Sample.pe "line" "4" "0"]] := by
  have on : ∀ t ∈ ["line", "curve"], ∀ x y, ¬ IsOff ⟨"point", [("x", x), ("y", y), ("type", t.toList)], []⟩ := by
    intro t ht x y h
    refine h t.toList rfl ?_
    simp only [List.mem_cons, List.not_mem_nil, or_false] at ht
    rcases ht with rfl | rfl <;> decide
  have none : ∀ p ∈ named "point" [Sample.pe "line" "0" "0", Sample.pe "line" "4" "0", Sample.pe "curve" "4" "4"], ¬ IsOff p := by
    intro p hp
    simp only [Sample.pe, named, List.filterMap_cons, List.filterMap_nil, if_pos, List.mem_cons, List.not_mem_nil, or_false] at hp
    rcases hp with rfl | rfl | rfl
    · exact on "line" (by simp) _ _
    · exact on "line" (by simp) _ _
    · exact on "curve" (by simp) _ _
  refine .cons (.inl ⟨rfl, fun a cs e => by simp at e⟩) (.cons (.inr ⟨_, _, _, _, rfl, rfl,
    ⟨[⟨"point", [("x", "4".toList), ("y", "4".toList), ("type", "curve".toList)], []⟩, ⟨"point", [("x", "4".toList), ("y", "0".toList), ("type", "line".toList)], []⟩], [_], rfl, rfl⟩,
    ⟨?_, fun p q r l h k => none p (rotated_mem h (by simp)) k.1⟩, fun o l h k => absurd k (none o (rotated_mem h (by simp))),
    ⟨_, _, rfl, on "line" (by simp) _ _⟩, ⟨_, _, rfl, on "line" (by simp) _ _⟩⟩) .nil)
  intro e he
  simp only [Sample.pe, named, List.filterMap_cons, List.filterMap_nil, if_pos, List.mem_cons, List.not_mem_nil, or_false] at he
  rcases he with rfl | rfl | rfl
  · exact .inl rfl
  · exact .inl rfl
  · exact .inr (.inl rfl)

end GP
