import Verif.Spec.StartPoint
import Verif.Props.SaveParts
import Verif.Props.Rewriting
import Verif.Props.FormatRead
import Verif.Props.Sample
/-!
# C148: which point a closed contour begins with in a file
-/
open Fl Fl.Text
namespace GP
variable {PD D : Type}
open Spec

/-- The points of a file that follow an on-curve point, as segments. -/
theorem point_segments (l : List GlifPoint) : ∃ (gs : GSegs) (back : List GlifPoint), l = gs.flatMap (fun s => s.1 ++ [s.2]) ++ back ∧
    (∀ s ∈ gs, (∀ o ∈ s.1, o.ptype = .offcurve) ∧ s.2.ptype ≠ .offcurve) ∧ ∀ o ∈ back, o.ptype = .offcurve := by
  induction l with
  | nil => exact ⟨[], [], rfl, by simp, by simp⟩
  | cons x l ih =>
    obtain ⟨gs, back, h1, h2, h3⟩ := ih
    by_cases hx : x.ptype = .offcurve
    · cases gs with
      | nil => exact ⟨[], x :: back, by rw [h1]; rfl, by simp, by simpa [hx] using h3⟩
      | cons s gs =>
        refine ⟨(x :: s.1, s.2) :: gs, back, by rw [h1]; simp, ?_, h3⟩
        intro t ht
        rcases List.mem_cons.1 ht with rfl | ht
        · obtain ⟨a, b⟩ := h2 s List.mem_cons_self
          exact ⟨by simpa [hx] using a, b⟩
        · exact h2 t (List.mem_cons_of_mem _ ht)
    · refine ⟨([], x) :: gs, back, by rw [h1]; simp, ?_, h3⟩
      intro t ht
      rcases List.mem_cons.1 ht with rfl | ht
      · exact ⟨by simp, hx⟩
      · exact h2 t ht

theorem curvesOf_append (b : Option GlifPoint) (g : GlifPoint) (S : GSegs) (bs : List GlifPoint) (g' : GlifPoint) (T : GSegs)
    (bt : List GlifPoint) : (curvesOf b g (S ++ (bs, g') :: T) bt : Contour PD) = curvesOf b g S bs ++ curvesOf bs[1]? g' T bt := by
  induction S generalizing b g with
  | nil => rfl
  | cons s S ih => obtain ⟨offs, h⟩ := s; simp only [List.cons_append, curvesOf, ih]

theorem curvesOf_ne_nil (b : Option GlifPoint) (g : GlifPoint) (S : GSegs) (bs : List GlifPoint) : (curvesOf b g S bs : Contour PD) ≠ [] := by
  cases S <;> simp [curvesOf]

/-- No three off-curve points in a row. -/
theorem ring_short {gc u v w : GlifContour} (h : CubicRing gc) (e : gc = u ++ v ++ w) (hv : ∀ o ∈ v, o.ptype = .offcurve) : v.length ≤ 2 := by
  rcases v with _ | ⟨p, _ | ⟨q, _ | ⟨r, v⟩⟩⟩
  · simp
  · simp
  · simp
  · exact absurd ⟨hv p (by simp), hv q (by simp), hv r (by simp)⟩
      (h.two p q r (v ++ w ++ u) ⟨u, p :: q :: r :: v ++ w, by rw [e]; simp, by simp⟩)

theorem segs_short {gc u w : GlifContour} {gs : GSegs} (h : CubicRing gc) (e : gc = u ++ gs.flatMap (fun s => s.1 ++ [s.2]) ++ w)
    (hs : ∀ s ∈ gs, (∀ o ∈ s.1, o.ptype = .offcurve)) : ∀ s ∈ gs, s.1.length ≤ 2 := by
  intro s hm
  obtain ⟨a, b, rfl⟩ := List.append_of_mem hm
  refine ring_short h (u := u ++ a.flatMap (fun s => s.1 ++ [s.2])) (w := [s.2] ++ b.flatMap (fun s => s.1 ++ [s.2]) ++ w) ?_ (hs s hm)
  rw [e]; simp

theorem contourOfGlif_cubic (mid : IOF → IOF → IOF) (g : GlifPoint) (gs : GSegs) (back : List GlifPoint)
    (h : CubicRing (g :: gs.flatMap (fun s => s.1 ++ [s.2]) ++ back)) (hg : g.ptype ≠ .offcurve)
    (hs : ∀ s ∈ gs, (∀ o ∈ s.1, o.ptype = .offcurve) ∧ s.2.ptype ≠ .offcurve) (hb : ∀ o ∈ back, o.ptype = .offcurve) :
    contourOfGlif mid (g :: gs.flatMap (fun s => s.1 ++ [s.2]) ++ back) = .ok (curvesOf back[1]? g gs back : Contour PD) := by
  have hgt : g.ptype = .line ∨ g.ptype = .curve := by
    rcases h.types g (by simp) with e | e | e
    · exact .inl e
    · exact .inr e
    · exact absurd e hg
  have e1 : contourOfGlif (PD := PD) mid (g :: gs.flatMap (fun s => s.1 ++ [s.2]) ++ back) =
      cubicContour (g :: gs.flatMap (fun s => s.1 ++ [s.2]) ++ back) := by
    rw [List.cons_append, contourOfGlif]
    rcases hgt with e | e <;> simp only [e]
  have hsh := segs_short (u := [g]) (w := back) h (by simp) (fun s hm => (hs s hm).1)
  obtain ⟨e2, e3⟩ := handedOn_short hsh
  rw [e1, cubicContour_eq g gs back (by rcases hgt with e | e <;> simp [CubicType, e]) ?_ hb
    (fun hm => absurd hm (by rcases hgt with e | e <;> simp [e])), e2, e3, if_neg (by rcases hgt with e | e <;> simp [e])]
  · rfl
  · intro s hm
    refine ⟨(hs s hm).1, ?_⟩
    have : s.2 ∈ g :: gs.flatMap (fun s => s.1 ++ [s.2]) ++ back := by
      simp only [List.cons_append, List.mem_cons, List.mem_append, List.mem_flatMap]
      exact .inr (.inl ⟨s, hm, by simp⟩)
    rcases h.types s.2 this with e | e | e
    · exact .inr (.inl e)
    · exact .inr (.inr e)
    · exact absurd e (hs s hm).2

theorem ring_rotated {gc gc' : GlifContour} (h : CubicRing gc) (hr : Rotated gc gc') : CubicRing gc' :=
  ⟨fun p hp => h.types p (rotated_mem hr hp), fun p q r l hl => h.two p q r l (rotated_trans hr hl)⟩

/-- **C148**, as far as it holds: a closed contour of lines and cubic curves that begins with another on-curve point in the file is
read as the same contour from another point on. -/
theorem C148_partial (mid : IOF → IOF → IOF) (gc gc' : GlifContour) (h : CubicRing gc) (hr : Rotated gc gc') (h1 : StartsOn gc) (h2 : StartsOn gc') :
    ∃ d d' : Contour PD, contourOfGlif mid gc = .ok d ∧ contourOfGlif mid gc' = .ok d' ∧ d ≠ [] ∧ Rotated d d' := by
  have h' := ring_rotated h hr
  obtain ⟨s, t, rfl, rfl⟩ := hr
  obtain ⟨g, l, e1, hg⟩ := h1
  obtain ⟨g', l', e2, hg'⟩ := h2
  have one : ∀ gc : GlifContour, CubicRing gc → ∀ g l, gc = g :: l → g.ptype ≠ .offcurve → ∃ d : Contour PD, contourOfGlif mid gc = .ok d ∧ d ≠ [] := by
    rintro gc h g l rfl hg
    obtain ⟨gs, back, rfl, hs, hb⟩ := point_segments l
    exact ⟨_, contourOfGlif_cubic mid g gs back h hg hs hb, curvesOf_ne_nil _ _ _ _⟩
  cases s with
  | nil =>
    rw [List.nil_append, List.append_nil] at *
    obtain ⟨d, hd, hn⟩ := one t h g l e1 hg
    exact ⟨d, d, hd, hd, hn, rotated_self d⟩
  | cons x s =>
  cases t with
  | nil =>
    rw [List.nil_append, List.append_nil] at *
    obtain ⟨d, hd, hn⟩ := one _ h g l e1 hg
    exact ⟨d, d, hd, hd, hn, rotated_self d⟩
  | cons y t =>
  obtain ⟨rfl, -⟩ := List.cons.inj e1
  obtain ⟨rfl, -⟩ := List.cons.inj e2
  obtain ⟨S, bs, rfl, hS, hbs⟩ := point_segments s
  obtain ⟨T, bt, rfl, hT, hbt⟩ := point_segments t
  have f1 : x :: (S.flatMap (fun s => s.1 ++ [s.2]) ++ bs) ++ y :: (T.flatMap (fun s => s.1 ++ [s.2]) ++ bt) =
      x :: (S ++ (bs, y) :: T).flatMap (fun s => s.1 ++ [s.2]) ++ bt := by simp
  have f2 : y :: (T.flatMap (fun s => s.1 ++ [s.2]) ++ bt) ++ x :: (S.flatMap (fun s => s.1 ++ [s.2]) ++ bs) =
      y :: (T ++ (bt, x) :: S).flatMap (fun s => s.1 ++ [s.2]) ++ bs := by simp
  rw [f1] at h ⊢
  rw [f2] at h' ⊢
  have all : ∀ (A B : GSegs) (b : List GlifPoint) (z : GlifPoint), (∀ s ∈ A, (∀ o ∈ s.1, o.ptype = .offcurve) ∧ s.2.ptype ≠ .offcurve) →
      (∀ s ∈ B, (∀ o ∈ s.1, o.ptype = .offcurve) ∧ s.2.ptype ≠ .offcurve) → (∀ o ∈ b, o.ptype = .offcurve) → z.ptype ≠ .offcurve →
      ∀ s ∈ A ++ (b, z) :: B, (∀ o ∈ s.1, o.ptype = .offcurve) ∧ s.2.ptype ≠ .offcurve := by
    intro A B b z hA hB hb hz s hs
    rcases List.mem_append.1 hs with hs | hs
    · exact hA s hs
    · rcases List.mem_cons.1 hs with rfl | hs
      · exact ⟨hb, hz⟩
      · exact hB s hs
  refine ⟨_, _, contourOfGlif_cubic mid x _ bt h hg (all S T bs y hS hT hbs hg') hbt,
    contourOfGlif_cubic mid y _ bs h' hg' (all T S bt x hT hS hbt hg) hbs, curvesOf_ne_nil _ _ _ _, ?_⟩
  rw [curvesOf_append, curvesOf_append]
  exact ⟨_, _, rfl, rfl⟩

theorem closedPairs_rotated {c d : Contour PD} (h : Rotated c d) : Rotated (closedPairs c) (closedPairs d) := by
  obtain ⟨s, t, rfl, rfl⟩ := h
  cases s with
  | nil => rw [List.nil_append, List.append_nil]; exact rotated_self _
  | cons a s =>
  cases t with
  | nil => rw [List.nil_append, List.append_nil]; exact rotated_self _
  | cons b t =>
  have key : ∀ (a b : Point PD) (s t : Contour PD), closedPairs (a :: s ++ b :: t) = (a :: s).zip (s ++ [b]) ++ (b :: t).zip (t ++ [a]) := by
    intro a b s t
    rw [closedPairs, ← List.zip_append (by simp)]
    congr 1
    simp
  exact ⟨_, _, key a b s t, key b a t s⟩

/-- **C148.** So both draw the same pieces, perhaps from another one on, and are closed. -/
theorem C148_drawn (mid : IOF → IOF → IOF) (gc gc' : GlifContour) (h : CubicRing gc) (hr : Rotated gc gc') (h1 : StartsOn gc) (h2 : StartsOn gc') :
    ∃ d d' : Contour PD, contourOfGlif mid gc = .ok d ∧ contourOfGlif mid gc' = .ok d' ∧ openContour d = false ∧ openContour d' = false ∧
      Rotated (wantedStrokes d) (wantedStrokes d') := by
  obtain ⟨d, d', e1, e2, -, r⟩ := C148_partial (PD := PD) mid gc gc' h hr h1 h2
  have closed : ∀ (gc : GlifContour) (d : Contour PD), CubicRing gc → StartsOn gc → contourOfGlif mid gc = .ok d → openContour d = false := by
    rintro _ d h ⟨g, l, rfl, hg⟩ e
    obtain ⟨gs, back, rfl, hs, hb⟩ := point_segments l
    rw [← List.cons_append, contourOfGlif_cubic mid g gs back h hg hs hb] at e
    cases e
    have : g.ptype ≠ .move := by rcases h.types g (by simp) with e | e | e <;> simp [e]
    cases gs <;> simp [curvesOf, openContour, withHandles, this]
  have c1 := closed gc d h h1 e1
  have c2 := closed gc' d' (ring_rotated h hr) h2 e2
  refine ⟨d, d', e1, e2, c1, c2, ?_⟩
  unfold wantedStrokes
  rw [c1, c2]
  exact rotated_of_map _ (closedPairs_rotated r)

/-- A contour that begins with an off-curve point in the file is lost. -/
theorem contourOfGlif_off (mid : IOF → IOF → IOF) (g : GlifPoint) (l : GlifContour) (h : g.ptype = .offcurve) :
    contourOfGlif mid (g :: l) = .ok ([] : Contour PD) := by
  rw [contourOfGlif]; simp only [h]

/-- **C148**, exactly: of the ways to begin the contour in the file exactly those with an on-curve point give the same contour; with an
off-curve point there is none. -/
theorem C148_exact (mid : IOF → IOF → IOF) (gc gc' : GlifContour) (h : CubicRing gc) (hr : Rotated gc gc') (h1 : StartsOn gc) :
    (∃ d d' : Contour PD, contourOfGlif mid gc = .ok d ∧ contourOfGlif mid gc' = .ok d' ∧ Rotated d d') ↔ StartsOn gc' := by
  constructor
  · rintro ⟨d, d', e1, e2, r⟩
    cases gc' with
    | nil => cases e2
    | cons g l =>
      refine ⟨g, l, rfl, fun hg => ?_⟩
      obtain ⟨c, -, e, -, hn, -⟩ := C148_partial (PD := PD) mid gc gc h (rotated_self gc) h1 h1
      rw [e] at e1
      cases e1
      rw [contourOfGlif_off mid g l hg] at e2
      cases e2
      have := rotated_length r
      exact hn (List.length_eq_zero_iff.1 this.symm)
  · intro h2
    obtain ⟨d, d', e1, e2, -, r⟩ := C148_partial (PD := PD) mid gc gc' h hr h1 h2
    exact ⟨d, d', e1, e2, r⟩

/-! ## Quadratic contours -/

theorem offsOf_types (mid : IOF → IOF → IOF) (l : List GlifPoint) (h : ∀ o ∈ l, o.ptype = .offcurve) :
    ∀ p ∈ (offsOf mid l : Contour PD), p.ptype ≠ .qclose := by
  have last : ∀ (l : List GlifPoint) (g : GlifPoint), g.ptype = .offcurve → (∀ o ∈ l, o.ptype = .offcurve) → (lastOff g l).ptype = .offcurve := by
    intro l
    induction l with
    | nil => intro g hg _; exact hg
    | cons a l ih => intro g _ h; exact ih a (h a (by simp)) fun o ho => h o (by simp [ho])
  have pre : ∀ (l : List GlifPoint) (g : GlifPoint), g.ptype = .offcurve → (∀ o ∈ l, o.ptype = .offcurve) →
      ∀ p ∈ (offsPre mid g l : Contour PD), p.ptype ≠ .qclose := by
    intro l
    induction l with
    | nil => intro g _ _ p hp; cases hp
    | cons a l ih =>
      intro g hg h p hp
      rcases List.mem_cons.1 hp with rfl | hp
      · simp [Point.ofGp, hg]
      · rcases List.mem_cons.1 hp with rfl | hp
        · simp [impliedOf]
        · exact ih a (h a (by simp)) (fun o ho => h o (by simp [ho])) p hp
  intro p hp
  cases l with
  | nil => exact absurd hp List.not_mem_nil
  | cons g l =>
    have hg := h g (by simp)
    have hl : ∀ o ∈ l, o.ptype = .offcurve := fun o ho => h o (by simp [ho])
    rcases List.mem_append.1 hp with hp | hp
    · exact pre l g hg hl p hp
    · rw [List.mem_singleton.1 hp]
      simp [Point.ofGp, last l g hg hl]

/-- The points of a quadratic contour up to its end. -/
theorem ringPoints_types (mid : IOF → IOF → IOF) (g : GlifPoint) (gs : GSegs) (hg : g.ptype ≠ .qclose)
    (hs : ∀ s ∈ gs, (∀ o ∈ s.1, o.ptype = .offcurve) ∧ s.2.ptype ≠ .qclose) :
    ∀ p ∈ (Point.ofGp g :: gs.flatMap (fun s => offsOf mid s.1 ++ [Point.ofGp s.2]) : Contour PD), p.ptype ≠ .qclose := by
  intro p hp
  rcases List.mem_cons.1 hp with rfl | hp
  · exact hg
  · obtain ⟨s, hs', hp⟩ := List.mem_flatMap.1 hp
    rcases List.mem_append.1 hp with hp | hp
    · exact offsOf_types mid s.1 (hs s hs').1 p hp
    · rw [List.mem_singleton.1 hp]
      exact (hs s hs').2

/-- A list that ends with something of a kind is rotated to one that has that only at its end only if it is the same. -/
theorem rotated_marked {α : Type} {P : α → Prop} {X Y : List α} {z w : α} (hY : ∀ y ∈ Y, ¬ P y) (hz : P z)
    (h : Rotated (X ++ [z]) (Y ++ [w])) : X ++ [z] = Y ++ [w] := by
  obtain ⟨u, v, e1, e2⟩ := h
  rcases List.eq_nil_or_concat v with rfl | ⟨v, b, rfl⟩
  · rw [List.append_nil] at e1; rw [List.nil_append] at e2; rw [e1, e2]
  · rcases List.eq_nil_or_concat u with rfl | ⟨u, a, rfl⟩
    · rw [List.append_nil] at e2; rw [List.nil_append] at e1; rw [e1, e2]
    · rw [List.concat_eq_append] at *
      rw [List.concat_eq_append] at *
      have f2 : Y = v ++ [b] ++ u ∧ w = a := by
        rw [← List.append_assoc] at e2
        obtain ⟨h1, h2⟩ := List.append_inj' e2 rfl
        exact ⟨h1, (List.cons.inj h2).1⟩
      have f1 : X = u ++ [a] ++ v ∧ z = b := by
        rw [← List.append_assoc] at e1
        obtain ⟨h1, h2⟩ := List.append_inj' e1 rfl
        exact ⟨h1, (List.cons.inj h2).1⟩
      exact absurd (f1.2 ▸ hz) (hY b (by rw [f2.1]; simp))

theorem stopsOn_segs (g : GlifPoint) (gs : GSegs) (back : List GlifPoint) (hg : g.ptype ≠ .offcurve) (hs : ∀ s ∈ gs, s.2.ptype ≠ .offcurve)
    (hb : ∀ o ∈ back, o.ptype = .offcurve) : StopsOn (g :: gs.flatMap (fun s => s.1 ++ [s.2]) ++ back) ↔ back = [] := by
  constructor
  · rintro ⟨z, l, e, hz⟩
    rcases List.eq_nil_or_concat back with h | ⟨b, o, rfl⟩
    · exact h
    · rw [List.concat_eq_append, ← List.append_assoc] at e
      obtain ⟨-, h2⟩ := List.append_inj' e rfl
      exact absurd (hb o (by simp)) ((List.cons.inj h2).1 ▸ hz)
  · rintro rfl
    rw [List.append_nil]
    rcases List.eq_nil_or_concat gs with rfl | ⟨gs, s, rfl⟩
    · exact ⟨g, [], rfl, hg⟩
    · exact ⟨s.2, g :: gs.flatMap (fun s => s.1 ++ [s.2]) ++ s.1, by simp, hs s (by simp)⟩

/-- **C148**, for contours of quadratic curves, exactly: begun with another on-curve point in the file, such a contour is read as the same
contour from another point on if and only if it ends with an on-curve point both times (or the very same is read). -/
theorem C148_quadratic (mid : IOF → IOF → IOF) (gc gc' : GlifContour) (h : QuadraticRing gc) (hr : Rotated gc gc') (h1 : StartsOn gc)
    (h2 : StartsOn gc') :
    ∃ d d' : Contour PD, contourOfGlif mid gc = .ok d ∧ contourOfGlif mid gc' = .ok d' ∧
      (Rotated d d' ↔ (StopsOn gc ∧ StopsOn gc') ∨ d = d') := by
  have quad : ∀ (g : GlifPoint) (gs : GSegs) (back : List GlifPoint), QuadraticRing (g :: gs.flatMap (fun s => s.1 ++ [s.2]) ++ back) →
      g.ptype ≠ .offcurve → (∀ s ∈ gs, (∀ o ∈ s.1, o.ptype = .offcurve) ∧ s.2.ptype ≠ .offcurve) → (∀ o ∈ back, o.ptype = .offcurve) →
      contourOfGlif (PD := PD) mid (g :: gs.flatMap (fun s => s.1 ++ [s.2]) ++ back) =
        .ok (Point.ofGp g :: gs.flatMap (fun s => offsOf mid s.1 ++ [Point.ofGp s.2]) ++ backOf mid (Point.ofGp g) back) ∧
      g.ptype ≠ .qclose ∧ ∀ s ∈ gs, (∀ o ∈ s.1, o.ptype = .offcurve) ∧ s.2.ptype ≠ .qclose := by
    intro g gs back hq hg hs hb
    have q : ∀ x ∈ g :: gs.flatMap (fun s => s.1 ++ [s.2]) ++ back, x.ptype ≠ .offcurve → x.ptype = .qcurve := fun x hx hn => by
      rcases hq x hx with e | e
      · exact e
      · exact absurd e hn
    have hgq := q g (by simp) hg
    refine ⟨?_, by simp [hgq], fun s hm => ⟨(hs s hm).1, ?_⟩⟩
    · rw [← quadraticContour_eq mid g gs back hg hs hb, List.cons_append, contourOfGlif]
      simp only [hgq]
    · have := q s.2 (by
        simp only [List.cons_append, List.mem_cons, List.mem_append, List.mem_flatMap]
        exact .inr (.inl ⟨s, hm, by simp⟩)) (hs s hm).2
      simp [this]
  have h' : QuadraticRing gc' := fun p hp => h p (rotated_mem hr hp)
  have same : ∀ gc : GlifContour, QuadraticRing gc → StartsOn gc → ∃ d : Contour PD, contourOfGlif mid gc = .ok d := by
    rintro _ hq ⟨g, l, rfl, hg⟩
    obtain ⟨gs, back, rfl, hs, hb⟩ := point_segments l
    exact ⟨_, (quad g gs back hq hg hs hb).1⟩
  obtain ⟨s, t, rfl, rfl⟩ := hr
  cases s with
  | nil =>
    rw [List.nil_append, List.append_nil] at *
    obtain ⟨d, hd⟩ := same t h h1
    exact ⟨d, d, hd, hd, fun _ => .inr rfl, fun _ => rotated_self d⟩
  | cons x s =>
  cases t with
  | nil =>
    rw [List.nil_append, List.append_nil] at *
    obtain ⟨d, hd⟩ := same _ h h1
    exact ⟨d, d, hd, hd, fun _ => .inr rfl, fun _ => rotated_self d⟩
  | cons y t =>
  obtain ⟨g, l, e1, hg⟩ := h1
  obtain ⟨g', l', e2, hg'⟩ := h2
  obtain ⟨rfl, -⟩ := List.cons.inj e1
  obtain ⟨rfl, -⟩ := List.cons.inj e2
  obtain ⟨S, bs, rfl, hS, hbs⟩ := point_segments s
  obtain ⟨T, bt, rfl, hT, hbt⟩ := point_segments t
  have f1 : x :: (S.flatMap (fun s => s.1 ++ [s.2]) ++ bs) ++ y :: (T.flatMap (fun s => s.1 ++ [s.2]) ++ bt) =
      x :: (S ++ (bs, y) :: T).flatMap (fun s => s.1 ++ [s.2]) ++ bt := by simp
  have f2 : y :: (T.flatMap (fun s => s.1 ++ [s.2]) ++ bt) ++ x :: (S.flatMap (fun s => s.1 ++ [s.2]) ++ bs) =
      y :: (T ++ (bt, x) :: S).flatMap (fun s => s.1 ++ [s.2]) ++ bs := by simp
  rw [f1] at h ⊢
  rw [f2] at h' ⊢
  have all : ∀ (A B : GSegs) (b : List GlifPoint) (z : GlifPoint), (∀ s ∈ A, (∀ o ∈ s.1, o.ptype = .offcurve) ∧ s.2.ptype ≠ .offcurve) →
      (∀ s ∈ B, (∀ o ∈ s.1, o.ptype = .offcurve) ∧ s.2.ptype ≠ .offcurve) → (∀ o ∈ b, o.ptype = .offcurve) → z.ptype ≠ .offcurve →
      ∀ s ∈ A ++ (b, z) :: B, (∀ o ∈ s.1, o.ptype = .offcurve) ∧ s.2.ptype ≠ .offcurve := by
    intro A B b z hA hB hb hz s hs
    rcases List.mem_append.1 hs with hs | hs
    · exact hA s hs
    · rcases List.mem_cons.1 hs with rfl | hs
      · exact ⟨hb, hz⟩
      · exact hB s hs
  have a1 := all S T bs y hS hT hbs hg'
  have a2 := all T S bt x hT hS hbt hg
  obtain ⟨d1, q1, r1⟩ := quad x _ bt h hg a1 hbt
  obtain ⟨d2, q2, r2⟩ := quad y _ bs h' hg' a2 hbs
  refine ⟨_, _, d1, d2, ?_⟩
  rw [stopsOn_segs x _ bt hg (fun s hs => (a1 s hs).2) hbt, stopsOn_segs y _ bs hg' (fun s hs => (a2 s hs).2) hbs]
  have t1 := ringPoints_types (PD := PD) mid x _ q1 r1
  have t2 := ringPoints_types (PD := PD) mid y _ q2 r2
  have back : ∀ (f : Point PD) (a : GlifPoint) (l : List GlifPoint), (∀ o ∈ a :: l, o.ptype = .offcurve) →
      ∃ X z, (backOf mid f (a :: l) : Contour PD) = X ++ [z] ∧ (∀ p ∈ X, p.ptype ≠ .qclose) ∧ z.ptype = .qclose :=
    fun f a l hl => ⟨_, _, rfl, offsOf_types mid _ hl, rfl⟩
  constructor
  · intro hr
    cases bt with
    | nil =>
      cases bs with
      | nil => exact .inl ⟨rfl, rfl⟩
      | cons b bs =>
        exfalso
        obtain ⟨X, z, e, -, hz⟩ := back (Point.ofGp y) b bs hbs
        rw [e] at hr
        have := rotated_mem hr (x := z) (by simp)
        simp only [backOf, List.append_nil] at this
        exact t1 z this hz
    | cons b bt =>
      obtain ⟨X, z, e, -, hz⟩ := back (Point.ofGp x) b bt hbt
      cases bs with
      | nil =>
        exfalso
        rw [e] at hr
        obtain ⟨u, v, k1, k2⟩ := hr
        have := rotated_mem ⟨v, u, k2, k1⟩ (x := z) (by simp)
        simp only [backOf, List.append_nil] at this
        exact t2 z this hz
      | cons c bs =>
        obtain ⟨Y, w, e', hY, -⟩ := back (Point.ofGp y) c bs hbs
        rw [e, e', ← List.append_assoc, ← List.append_assoc] at hr ⊢
        refine .inr (rotated_marked (P := fun p => p.ptype = .qclose) ?_ hz hr)
        intro p hp
        rcases List.mem_append.1 hp with hp | hp
        · exact t2 p hp
        · exact hY p hp
  · rintro (⟨rfl, rfl⟩ | e)
    · refine ⟨Point.ofGp x :: S.flatMap (fun s => offsOf mid s.1 ++ [Point.ofGp s.2]),
        Point.ofGp y :: T.flatMap (fun s => offsOf mid s.1 ++ [Point.ofGp s.2]), ?_, ?_⟩ <;> simp [backOf, offsOf]
    · rw [← e]; exact rotated_self _

/-! ## Documents -/

theorem rotated_forall₂ {α β : Type} {R : α → β → Prop} {as : List α} {bs bs' : List β} (h : List.Forall₂ R as bs) (hr : Rotated bs bs') :
    ∃ as', Rotated as as' ∧ List.Forall₂ R as' bs' := by
  obtain ⟨s, t, rfl, rfl⟩ := hr
  obtain ⟨u, v, h1, h2, e⟩ := forall₂_split (List.Forall₂.flip h)
  exact ⟨v ++ u, ⟨u, v, e, rfl⟩, (List.rel_append h2 h1).flip⟩

/-- The points of a closed contour, read. -/
theorem ring_read {es : List Element} {gc : GlifContour} (h : CubicElements es) (hr : List.Forall₂ (fun e g => readPoint e = .ok g) es gc) :
    CubicRing gc := by
  constructor
  · refine forall₂_each_right hr fun e he g hg => ?_
    obtain ⟨-, t1, t2, -, t3, -⟩ := readPoint_type hg
    rcases h.types e he with k | k | k
    · exact .inl (t1.2 k)
    · exact .inr (.inl (t2.2 k))
    · exact .inr (.inr (t3.2 k))
  · intro p q r l hl
    obtain ⟨es', h1, h2⟩ := rotated_forall₂ hr hl
    cases h2 with
    | cons a h2 =>
    cases h2 with
    | cons b h2 =>
    cases h2 with
    | cons c h2 =>
    rintro ⟨k1, k2, k3⟩
    exact h.two _ _ _ _ h1 ⟨(readPoint_type a).2.2.2.2.1.1 k1, (readPoint_type b).2.2.2.2.1.1 k2, (readPoint_type c).2.2.2.2.1.1 k3⟩

theorem startsOn_read {es : List Element} {gc : GlifContour} (h : StartsOnCurve es) (hr : List.Forall₂ (fun e g => readPoint e = .ok g) es gc) :
    StartsOn gc := by
  obtain ⟨e, l, rfl, he⟩ := h
  cases hr with
  | cons a _ => exact ⟨_, _, rfl, fun k => he ((readPoint_type a).2.2.2.2.1.1 k)⟩

theorem outline_one {mid : IOF → IOF → IOF} {gc : GlifContour} {d : Contour PD} (h : contourOfGlif mid gc = .ok d) (hd : d ≠ []) :
    outlineOfGlif mid [gc] = .ok [d] := by
  unfold outlineOfGlif
  rw [Out.mapM'_cons, h]
  cases d with
  | nil => exact absurd rfl hd
  | cons p d => rfl

theorem restarted_one {mid : IOF → IOF → IOF} {pio : PlistIO D} {ped : Pedantry} {root : Element} {pre post : List Node}
    {attrs : List (String × Str)} {x y : Node} (hpre : named "outline" pre = []) (h : Restarted x y) {gx : Glif PD D}
    (hx : readGlif mid pio ped (withOutline root pre post attrs [x]) = .ok gx) :
    ∃ gy : Glif PD D, readGlif mid pio ped (withOutline root pre post attrs [y]) = .ok gy ∧ gy.components.vec = gx.components.vec ∧
      List.Forall₂ Rotated (gx.outline.getD []) (gy.outline.getD []) := by
  rcases h with rfl | ⟨a, b, cs, ds, rfl, rfl, hr, hc, h1, h2⟩
  · exact ⟨gx, hx, rfl, List.forall₂_same.2 fun c _ => rotated_self c⟩
  obtain ⟨p, out, t1, t2, t3, k1, k2, k3, k4, k5, k6, k7, rfl⟩ := (readGlif_ok_iff mid pio ped _ gx).1 hx
  have nX := named_withOutline root pre post attrs [.elem "contour" a cs] hpre
  have nY := named_withOutline root pre post attrs [.elem "contour" b ds] hpre
  have one : ∀ a cs, readOutline ⟨"outline", attrs, [.elem "contour" a cs]⟩ =
      (Out.mapM' readPoint (named "point" cs) >>= fun gc => .ok ([gc].filter (fun c => !c.isEmpty), [])) := by
    intro a cs
    have n1 : named "contour" [.elem "contour" a cs] = [⟨"contour", a, cs⟩] := rfl
    have n2 : named "component" [.elem "contour" a cs] = [] := rfl
    rw [readOutline_eq, readOutlineBy, n1, n2, Out.mapM'_cons, readContour_eq]
    cases Out.mapM' readPoint (named "point" cs) <;> rfl
  have full : ∀ gc : GlifContour, StartsOn gc → [gc].filter (fun c => !c.isEmpty) = [gc] := by
    rintro _ ⟨g, l, rfl, -⟩
    rfl
  rw [nX.1, readOpt, one] at k6
  obtain ⟨r, hr', k6⟩ := bind_eq_ok.1 k6
  have k6 : p.outline = some r := (Out.ok.inj k6).symm
  obtain ⟨gc, hgc, hr'⟩ := bind_eq_ok.1 hr'
  have hf := (mapM'_ok_iff _ _).1 hgc
  have s1 := startsOn_read h1 hf
  rw [full gc s1] at hr'
  cases hr'
  obtain ⟨u, v, e1, e2⟩ := hr
  have hf' := hf
  rw [e1] at hf'
  obtain ⟨gu, gv, fu, fv, rfl⟩ := forall₂_split hf'
  have fds : List.Forall₂ (fun e g => readPoint e = .ok g) (named "point" ds) (gv ++ gu) := by rw [e2]; exact List.rel_append fv fu
  have s2 := startsOn_read h2 fds
  obtain ⟨d, d', c1, c2, hd, hrot⟩ := C148_partial (PD := PD) mid _ (gv ++ gu) (ring_read hc hf) ⟨gu, gv, rfl, rfl⟩ s1 s2
  have hd' : d' ≠ [] := by
    rintro rfl
    exact hd (List.length_eq_zero_iff.1 (rotated_length hrot).symm)
  rw [k6] at k7
  have k7 : outlineOfGlif mid [gu ++ gv] = .ok out := k7
  rw [outline_one c1 hd] at k7
  cases k7
  have kids : ∀ n, n ≠ "outline" → named n (withOutline root pre post attrs [.elem "contour" b ds]).children =
      named n (withOutline root pre post attrs [.elem "contour" a cs]).children := fun n hn => by rw [nX.2 n hn, nY.2 n hn]
  refine ⟨_, (readGlif_ok_iff mid pio ped _ _).2 ⟨{ p with outline := some ([gv ++ gu], []) }, [d'], t1, t2, t3, ?_, ?_, ?_, ?_, ?_, ?_,
    outline_one c2 hd', rfl⟩, ?_, ?_⟩
  · rw [kids _ (by decide)]; exact k1
  · rw [kids _ (by decide)]; exact k2
  · rw [kids _ (by decide)]; exact k3
  · rw [kids _ (by decide)]; exact k4
  · rw [kids _ (by decide)]; exact k5
  · rw [nY.1, readOpt, one, (mapM'_ok_iff _ _).2 fds, Out.bind_ok, full _ s2]; rfl
  · unfold glifOf; rw [k6]; rfl
  · unfold glifOf; rw [k6]; exact .cons hrot .nil

/-- **C148** for documents: if closed contours of lines and cubic curves begin with other on-curve points, the same glyph is read, with
these contours from other points on. -/
theorem C148_document (mid : IOF → IOF → IOF) (pio : PlistIO D) (ped : Pedantry) (root : Element) (pre post : List Node)
    (attrs : List (String × Str)) (xs ys : List Node) (hpre : named "outline" pre = []) (h : List.Forall₂ Restarted xs ys) (g : Glif PD D)
    (hg : readGlif mid pio ped (withOutline root pre post attrs xs) = .ok g) :
    ∃ g' : Glif PD D, readGlif mid pio ped (withOutline root pre post attrs ys) = .ok g' ∧ (∀ o ks, holding g' o ks = holding g o ks) ∧
      g'.components = g.components ∧ List.Forall₂ Rotated (g.outline.getD []) (g'.outline.getD []) := by
  obtain ⟨g₀, gs, h0, hgs, rfl⟩ := (C146_each mid pio ped root pre post attrs xs hpre g).1 hg
  obtain ⟨hs, e1, e2, e3⟩ : ∃ hs : List (Glif PD D), List.Forall₂ (fun x gx => readGlif mid pio ped (withOutline root pre post attrs [x]) = .ok gx) ys hs ∧
      (hs.flatMap fun gx => gx.components.vec) = (gs.flatMap fun gx => gx.components.vec) ∧
      List.Forall₂ Rotated (gs.flatMap fun gx => gx.outline.getD []) (hs.flatMap fun gx => gx.outline.getD []) := by
    clear hg
    induction h generalizing gs with
    | nil => cases hgs; exact ⟨[], .nil, rfl, .nil⟩
    | cons hxy _ ih =>
      cases hgs with
      | cons hx hgs =>
        obtain ⟨hs, a1, a2, a3⟩ := ih _ hgs
        obtain ⟨gy, b1, b2, b3⟩ := restarted_one hpre hxy hx
        refine ⟨gy :: hs, .cons b1 a1, ?_, ?_⟩
        · rw [List.flatMap_cons, List.flatMap_cons, a2, b2]
        · rw [List.flatMap_cons, List.flatMap_cons]
          exact List.rel_append b3 a3
  obtain ⟨z1, -⟩ := read_emptyOutline hpre h0
  refine ⟨_, (C146_each mid pio ped root pre post attrs ys hpre _).2 ⟨g₀, hs, h0, e1, rfl⟩, fun _ _ => rfl, ?_, ?_⟩
  · simp only [withMore, e2]
  · rw [withMore_outline, withMore_outline, z1, Option.getD_none, List.nil_append, List.nil_append]
    exact e3

theorem Sample.loop_ring : CubicRing [Sample.gp .curve 0 0, Sample.gp .offcurve 4 0, Sample.gp .offcurve 0 4] := by
  refine ⟨by simp [Sample.gp], ?_⟩
  intro p q r l h
  rcases rotated_three h with e | e | e <;> obtain ⟨rfl, rfl, rfl, rfl⟩ : p = _ ∧ q = _ ∧ r = _ ∧ l = _ := by simpa using e
  all_goals simp [Sample.gp]

/-- **C148 is false of the code**: a loop that begins with an off-curve point in the file is lost, and one of quadratic curves that ends
with an off-curve point is read with a point that the same contour, begun elsewhere, does not have. -/
theorem C148_false (mid : IOF → IOF → IOF) :
    (∃ (gc gc' : GlifContour) (d : Contour PD), CubicRing gc ∧ Rotated gc gc' ∧ contourOfGlif mid gc = .ok d ∧ d ≠ [] ∧
      contourOfGlif mid gc' = .ok ([] : Contour PD)) ∧
    ∃ (gc gc' : GlifContour) (d d' : Contour PD), QuadraticRing gc ∧ StartsOn gc ∧ StartsOn gc' ∧ Rotated gc gc' ∧
      contourOfGlif mid gc = .ok d ∧ contourOfGlif mid gc' = .ok d' ∧ d'.length = d.length + 1 := by
  constructor
  · obtain ⟨d, -, h1, -, h2, -⟩ := C148_partial (PD := PD) mid _ _ Sample.loop_ring (rotated_self _) ⟨_, _, rfl, by simp [Sample.gp]⟩
      ⟨_, _, rfl, by simp [Sample.gp]⟩
    exact ⟨_, [Sample.gp .offcurve 4 0, Sample.gp .offcurve 0 4, Sample.gp .curve 0 0], d, Sample.loop_ring,
      ⟨[Sample.gp .curve 0 0], [Sample.gp .offcurve 4 0, Sample.gp .offcurve 0 4], rfl, rfl⟩, h1, h2, contourOfGlif_off mid _ _ rfl⟩
  · exact ⟨[Sample.gp .qcurve 0 0, Sample.gp .offcurve 4 0, Sample.gp .qcurve 4 4], [Sample.gp .qcurve 4 4, Sample.gp .qcurve 0 0, Sample.gp .offcurve 4 0],
      _, _, by simp [QuadraticRing, Sample.gp], ⟨_, _, rfl, by simp [Sample.gp]⟩, ⟨_, _, rfl, by simp [Sample.gp]⟩,
      ⟨[Sample.gp .qcurve 0 0, Sample.gp .offcurve 4 0], [Sample.gp .qcurve 4 4], rfl, rfl⟩, rfl, rfl, rfl⟩

/-- A closed contour of two lines and a curve, begun at two points. -/
example : let a := Sample.gp .line 0 0
    let b := Sample.gp .line 4 0
    let c := Sample.gp .curve 4 4
    let o := Sample.gp .offcurve 5 1
    let p := Sample.gp .offcurve 5 3
    CubicRing [a, b, o, p, c] ∧ Rotated [a, b, o, p, c] [c, a, b, o, p] ∧ StartsOn [a, b, o, p, c] ∧ StartsOn [c, a, b, o, p] := by
  intro a b c o p
  refine ⟨⟨by simp [a, b, c, o, p, Sample.gp], ?_⟩, ⟨[a, b, o, p], [c], rfl, rfl⟩, ⟨_, _, rfl, by simp [a, Sample.gp]⟩, ⟨_, _, rfl, by simp [c, Sample.gp]⟩⟩
  rintro x y z l ⟨s, t, e1, e2⟩ ⟨h1, h2, h3⟩
  have k1 : (s ++ t).countP (fun q => q.ptype = .offcurve) = 2 := by rw [← e1]; rfl
  have k2 : (t ++ s).countP (fun q => q.ptype = .offcurve) ≥ 3 := by rw [← e2]; simp [h1, h2, h3]
  rw [List.countP_append] at k1 k2
  omega

/-- Documents whose contours begin differently. -/
example : Restarted (.elem "contour" [] [Sample.pe "line" "0" "0", Sample.pe "line" "4" "0", Sample.pe "curve" "4" "4"])
    (.elem "contour" [] [Sample.pe "line" "4" "0", Sample.pe "curve" "4" "4", Sample.pe "line" "0" "0"]) := by
  have on : ∀ t ∈ ["line", "curve"], ∀ x y, ¬ IsOff ⟨"point", [("x", x), ("y", y), ("type", t.toList)], []⟩ := by
    intro t ht x y h
    refine h t.toList rfl ?_
    simp only [List.mem_cons, List.not_mem_nil, or_false] at ht
    rcases ht with rfl | rfl <;> decide
  refine .inr ⟨_, _, _, _, rfl, rfl, ⟨[⟨"point", [("x", "0".toList), ("y", "0".toList), ("type", "line".toList)], []⟩], _, rfl, rfl⟩, ⟨?_, ?_⟩,
    ⟨_, _, rfl, on "line" (by simp) _ _⟩, ⟨_, _, rfl, on "line" (by simp) _ _⟩⟩
  · intro e he
    simp only [Sample.pe, named, List.filterMap_cons, List.filterMap_nil, if_pos, List.mem_cons, List.not_mem_nil, or_false] at he
    rcases he with rfl | rfl | rfl
    · exact .inl rfl
    · exact .inl rfl
    · exact .inr (.inl rfl)
  · intro p q r l h k
    have := rotated_mem h (x := p) (by simp)
    simp only [Sample.pe, named, List.filterMap_cons, List.filterMap_nil, if_pos, List.mem_cons, List.not_mem_nil, or_false] at this
    rcases this with rfl | rfl | rfl
    · exact on "line" (by simp) _ _ k.1
    · exact on "line" (by simp) _ _ k.1
    · exact on "curve" (by simp) _ _ k.1

/-- A contour of two quadratic curves that ends with an on-curve point from either start. -/
example : QuadraticRing [Sample.gp .qcurve 0 0, Sample.gp .offcurve 2 2, Sample.gp .qcurve 4 0, Sample.gp .qcurve 4 1, Sample.gp .offcurve 2 3, Sample.gp .qcurve 0 1] ∧
    StartsOn [Sample.gp .qcurve 4 1, Sample.gp .offcurve 2 3, Sample.gp .qcurve 0 1, Sample.gp .qcurve 0 0, Sample.gp .offcurve 2 2, Sample.gp .qcurve 4 0] ∧
    StopsOn [Sample.gp .qcurve 4 1, Sample.gp .offcurve 2 3, Sample.gp .qcurve 0 1, Sample.gp .qcurve 0 0, Sample.gp .offcurve 2 2, Sample.gp .qcurve 4 0] ∧
    Rotated [Sample.gp .qcurve 0 0, Sample.gp .offcurve 2 2, Sample.gp .qcurve 4 0, Sample.gp .qcurve 4 1, Sample.gp .offcurve 2 3, Sample.gp .qcurve 0 1]
      [Sample.gp .qcurve 4 1, Sample.gp .offcurve 2 3, Sample.gp .qcurve 0 1, Sample.gp .qcurve 0 0, Sample.gp .offcurve 2 2, Sample.gp .qcurve 4 0] :=
  ⟨by simp [QuadraticRing, Sample.gp], ⟨_, _, rfl, by simp [Sample.gp]⟩,
    ⟨Sample.gp .qcurve 4 0, [Sample.gp .qcurve 4 1, Sample.gp .offcurve 2 3, Sample.gp .qcurve 0 1, Sample.gp .qcurve 0 0, Sample.gp .offcurve 2 2], rfl, by simp [Sample.gp]⟩,
    ⟨[Sample.gp .qcurve 0 0, Sample.gp .offcurve 2 2, Sample.gp .qcurve 4 0], [Sample.gp .qcurve 4 1, Sample.gp .offcurve 2 3, Sample.gp .qcurve 0 1], rfl, rfl⟩⟩

end GP
