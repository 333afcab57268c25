import Verif.Spec.New
import Verif.Props.FileContours
import Verif.Props.Resave
import Verif.Props.Matrix
/-!
# Glyphs made in a program (C122)
-/
open Fl
namespace GP
open Spec
variable {PD D : Type}

/-- **C122.** A glyph made with the constructors can be written exactly if each contour has a point that was asked to be
on the curve, and none that was asked to be of a type without a name in the format. -/
theorem C122_exact (pio : PlistIO D) (n : Str) (cs : List (List (PointCall PD))) (bs : List Str) :
    (∃ e, glifXml pio (program n cs bs : Glif PD D) = .ok e) ↔
      ∀ c ∈ cs, (∃ k ∈ c, ∃ t, k.asked = some t ∧ t ≠ .offcurve) ∧ ∀ k ∈ c, k.asked ≠ some .undefined ∧ k.asked ≠ some .qclose := by
  have hp := glifXml_panic pio (program n cs bs : Glif PD D)
  have key : ∀ k : PointCall PD, k.run.ptype = k.asked.getD .offcurve := by intro k; cases k <;> rfl
  have h1 : (∃ e, glifXml pio (program n cs bs : Glif PD D) = .ok e) ↔ ¬ glifXml pio (program n cs bs : Glif PD D) = .panic := by
    cases hx : glifXml pio (program n cs bs : Glif PD D) with
    | ok e => simp
    | err e => exact absurd hx (C06_no_err pio _ e)
    | panic => simp
  rw [h1, hp]
  simp only [program, Option.getD_some, List.mem_map, not_exists, not_and, forall_exists_index, and_imp,
    forall_apply_eq_imp_iff₂, C05_panics_iff, not_or, not_forall]
  constructor
  · intro h c hc
    obtain ⟨⟨p, ⟨k, hk, rfl⟩, ho⟩, h2⟩ := h c hc
    refine ⟨⟨k, hk, ?_⟩, fun k hk => ?_⟩
    · rw [key] at ho
      cases ha : k.asked with
      | none => rw [ha] at ho; exact absurd rfl ho
      | some t => rw [ha] at ho; exact ⟨t, rfl, ho⟩
    · have := h2 k hk
      rw [key] at this
      constructor <;> (intro e; rw [e] at this; simp at this)
  · intro h c hc
    obtain ⟨⟨k, hk, t, ha, ht⟩, h2⟩ := h c hc
    refine ⟨⟨k.run, ⟨k, hk, rfl⟩, ?_⟩, ?_⟩
    · rw [key, ha]; exact ht
    · intro k hk
      obtain ⟨h3, h4⟩ := h2 k hk
      rw [key]
      cases ha : k.asked with
      | none => simp
      | some t => rw [ha] at h3 h4; simpa using ⟨fun e => h3 (by rw [e]), fun e => h4 (by rw [e])⟩

/-- C122 as stated is false: a contour of a new point cannot be written, and a default editor glyph cannot be made a
glyph: both panic. -/
theorem C122_false (pio : PlistIO D) : glifXml pio (program "a".toList [[.new]] [] : Glif PD D) = .panic ∧
    (MGlif.blank : MGlif PD).toGlif (D := D) = .panic := by
  refine ⟨?_, rfl⟩
  rw [glifXml_panic]
  refine ⟨[Point.new], List.mem_singleton_self _, (C05_panics_iff _).2 (Or.inl ?_)⟩
  intro p hp
  cases List.mem_singleton.1 hp
  rfl

theorem polygon_kept (z n : F32 × F32) (t u : PointType) (ht : t ≠ .curve) (hu : u ≠ .curve) :
    unsigned (kept (PointCall.place z.1 z.2 t : PointCall PD).run (PointCall.place n.1 n.2 u : PointCall PD).run) =
      (PointCall.place (unsignedPlace z).1 (unsignedPlace z).2 t).run := by
  unfold kept unsigned
  simp [PointCall.run, Point.fromXYType, Point.new, ht, hu, unsignedHandle, unsignedPlace]

theorem lines_kept (r : List (F32 × F32)) (n : F32 × F32) (t : PointType) (ht : t ≠ .curve) :
    ∀ z : F32 × F32, ∀ u : PointType, u ≠ .curve →
    (List.zipWith kept ((PointCall.place z.1 z.2 u : PointCall PD).run :: r.map fun z => (PointCall.place z.1 z.2 .line).run)
      ((r.map fun z => (PointCall.place z.1 z.2 .line).run) ++ [(PointCall.place n.1 n.2 t : PointCall PD).run])).map unsigned =
    (PointCall.place (unsignedPlace z).1 (unsignedPlace z).2 u).run ::
      r.map fun z => (PointCall.place (unsignedPlace z).1 (unsignedPlace z).2 .line).run := by
  induction r with
  | nil => intro z u hu; simp [polygon_kept z n u t hu ht]
  | cons w r ih =>
    intro z u hu
    have := ih w .line (by decide)
    simp only [List.map_cons, List.cons_append, List.zipWith_cons_cons, polygon_kept z w u .line hu (by decide)]
    rw [← this]

/-- The points of a polygon. -/
theorem polygon_stored (o : Bool) (zs : List (F32 × F32)) :
    (stored ((polygonCalls o zs : List (PointCall PD)).map PointCall.run)).map unsigned =
      (polygonCalls o (zs.map unsignedPlace)).map PointCall.run := by
  cases zs with
  | nil => rfl
  | cons z r =>
    have hc : (if o then PointType.move else .line) ≠ .curve := by cases o <;> decide
    have h := lines_kept (PD := PD) r z _ hc z _ hc
    simp only [polygonCalls, List.map_cons, List.map_map, stored, keptContour]
    rw [if_neg (by simpa [PointCall.run, Point.fromXYType] using hc)]
    simpa [Function.comp_def] using h

/-- **C122**, what holds: polygons, open or closed, and references made in a program come back when the glyph is saved
and read: the same points in the same order, and components that move nothing. -/
theorem C122_partial (mid : IOF → IOF → IOF) (pio : PlistIO D) (n : Str) (ps : List (Bool × List (F32 × F32))) (bs : List Str)
    (h : ∀ p ∈ ps, p.2 ≠ [] ∧ (p.1 = true → 2 ≤ p.2.length)) :
    ∃ g : Glif PD D, (glifXml pio (program n (ps.map fun p => polygonCalls p.1 p.2) bs : Glif PD D) >>= readGlif mid pio {}) = .ok g ∧
      g.outline.getD [] = ps.map (fun p => (polygonCalls p.1 (p.2.map unsignedPlace)).map PointCall.run) ∧
      g.components.vec.map (·.base) = bs ∧
      (∀ c ∈ g.components.vec, c.identifier = none ∧ c.filename = none ∧ c.m.affine = Affine.identity) ∧
      g = { (Glif.new : Glif PD D) with
        name := n, outline := g.outline, components := { root := n, vec := g.components.vec, uniques := [] } } := by
  refine ⟨_, glif_trip mid pio _ ⟨?_, nofun, nofun, trivial⟩, ?_, ?_, ?_, ?_⟩
  · intro o ho c hc
    cases ho
    simp only [List.map_map, List.mem_map] at hc
    obtain ⟨p, hp, rfl⟩ := hc
    obtain ⟨hne, _⟩ := h p hp
    cases hz : p.2 with
    | nil => exact absurd hz hne
    | cons z r =>
      refine ⟨by simp [polygonCalls, hz], ?_⟩
      intro q hq
      simp only [Function.comp_apply, hz, polygonCalls, List.map_cons, List.map_map, List.mem_cons, List.mem_map] at hq
      rcases hq with rfl | ⟨w, _, rfl⟩
      · cases p.1
        · exact Or.inr (Or.inl rfl)
        · exact Or.inl rfl
      · exact Or.inr (Or.inl rfl)
  · have hr : resavedOutline ((program n (ps.map fun p => polygonCalls p.1 p.2) bs : Glif PD D).outline.getD []) =
        ps.map (fun p => (polygonCalls p.1 (p.2.map unsignedPlace)).map PointCall.run) := by
      have hl : ∀ c ∈ ((ps.map fun p => polygonCalls p.1 p.2).map fun c : List (PointCall PD) => c.map PointCall.run),
          (!loneMove c) = true := by
        intro c hc
        simp only [List.map_map, List.mem_map] at hc
        obtain ⟨p, hp, rfl⟩ := hc
        obtain ⟨hne, h2⟩ := h p hp
        rcases p with ⟨o, zs⟩
        match zs, hne, h2 with
        | [z], _, h2 =>
          cases o with
          | false => rfl
          | true => exact absurd (h2 rfl) (by decide : ¬ 2 ≤ 1)
        | z :: w :: r, _, _ => rfl
      unfold resavedOutline
      show List.map _ (List.filter _ ((ps.map fun p => polygonCalls p.1 p.2).map fun c : List (PointCall PD) => c.map PointCall.run)) = _
      rw [List.filter_eq_self.2 hl, List.map_map, List.map_map]
      exact List.map_congr_left fun p _ => polygon_stored p.1 p.2
    have : ∀ (b : Bool) (l : Outline PD), (b = false → l = []) → (if b then some l else none).getD [] = l := by
      intro b l hb
      cases b
      · simp [hb rfl]
      · rfl
    rw [← hr]
    refine this _ _ fun hb => ?_
    simp only [Bool.or_eq_false_iff, Bool.not_eq_false', List.isEmpty_iff] at hb
    exact hb.1
  · simp [saved, program, savedComponent, Function.comp_def]
  · intro c hc
    simp only [saved, program, List.map_map, List.mem_map] at hc
    obtain ⟨b, _, rfl⟩ := hc
    exact ⟨rfl, rfl, (by decide +kernel : GlifComponent.new.m.reread.affine = Affine.identity)⟩
  · rfl

theorem blank_app32 {x y : F32} (hx : x.isFinite = true) (hy : y.isFinite = true) :
    AtOrigin (GlifComponent.blank.m.affine.app32 x y).1 (GlifComponent.blank.m.affine.app32 x y).2 := by
  have hx' := to64_exact (Exact.of_finite hx)
  have hy' := to64_exact (Exact.of_finite hy)
  have h0 : Exact (Flt.zero : F64) 0 := exact_zero (by decide)
  have h32 : Exact (Flt.zero : F32) 0 := exact_zero (by decide)
  have e1 := mul_exact b64_p h0 hx' h0 (by rw [Int.zero_mul, Int.zero_mul])
  have e2 := mul_exact b64_p h0 hy' h0 (by rw [Int.zero_mul, Int.zero_mul])
  have e3 := add_exact b64_p e1 e2 (by simpa using h0)
  rw [Int.add_zero] at e3
  have e4 := add_exact b64_p e3 h0 (by simpa using h0)
  rw [Int.add_zero] at e4
  have e5 := to32_exact h32 (by rw [Int.zero_mul]; exact e4)
  have hm : GlifComponent.blank.m.affine = ⟨Flt.zero, Flt.zero, Flt.zero, Flt.zero, Flt.zero, Flt.zero⟩ := by decide +kernel
  rw [hm]
  exact ⟨normZero_eq_of_sval b32_p e5 h32, normZero_eq_of_sval b32_p e5 h32⟩

theorem cyclicPairs_map {α β : Type} (f : α → β) (l : List α) : cyclicPairs (l.map f) = (cyclicPairs l).map (Prod.map f f) := by
  unfold cyclicPairs
  rw [List.getLast?_map]
  cases l.getLast? with
  | none => rfl
  | some z => simp only [Option.map_some, ← List.map_cons, List.zip_map]

theorem curveSegments_unsigned (c : Contour PD) : curveSegments (c.map unsigned) = (curveSegments c).map Poly.unsigned := by
  unfold curveSegments
  rw [cyclicPairs_map, List.filter_map, List.map_map, List.map_map]
  refine List.map_congr_left fun x _ => ?_
  obtain ⟨q, p⟩ := x
  simp only [Function.comp_apply, Prod.map, segment, outPos, inPos, unsigned, Poly.unsigned]
  cases q.a <;> cases p.b <;> rfl

theorem curveSegments_calls (c : List (PointCall PD)) : curveSegments (c.map PointCall.run) = callCurves c := by
  unfold curveSegments callCurves
  rw [cyclicPairs_map, List.filter_map, List.map_map]
  have hf : ((fun x : Point PD × Point PD => x.2.ptype == .curve) ∘ Prod.map PointCall.run PointCall.run) =
      fun x : PointCall PD × PointCall PD => x.2.asked == some .curve := by
    funext x
    obtain ⟨j, k⟩ := x
    cases k <;> simp [Prod.map, PointCall.run, PointCall.asked, Point.new, Point.fromXYType, Point.fromXYABType, Point.fromFields] <;> rfl
  rw [hf]
  refine List.map_congr_left fun x _ => ?_
  obtain ⟨j, k⟩ := x
  have hout : ∀ k : PointCall PD, (k.run.x, k.run.y) = k.site ∧ outPos k.run = k.leaves ∧ inPos k.run = k.arrives := by
    intro k
    cases k with
    | new => exact ⟨rfl, rfl, rfl⟩
    | place x y t => exact ⟨rfl, rfl, rfl⟩
    | handles x y a b t => exact ⟨rfl, by cases a <;> rfl, by cases b <;> rfl⟩
    | fields x y a b s t n d => exact ⟨rfl, by cases a <;> rfl, by cases b <;> rfl⟩
  simp only [Function.comp_apply, Prod.map, segment, (hout j).1, (hout j).2.1, (hout k).2.2, (hout k).1]

/-- **C122**, what holds of curves: contours of lines and curves, made with any of the constructors, come back when the glyph is saved and
read with the points and the curves that were asked for. -/
theorem C122_curves (mid : IOF → IOF → IOF) (pio : PlistIO D) (n : Str) (cs : List (List (PointCall PD))) (bs : List Str)
    (h : ∀ c ∈ cs, c ≠ [] ∧ (∀ k ∈ c, k.asked = some .move ∨ k.asked = some .line ∨ k.asked = some .curve) ∧
      c.map PointCall.asked ≠ [some .move]) :
    ∃ g : Glif PD D, (glifXml pio (program n cs bs : Glif PD D) >>= readGlif mid pio {}) = .ok g ∧
      List.Forall₂ HoldsCalls cs (g.outline.getD []) := by
  have hasked : ∀ k : PointCall PD, ∀ t, k.asked = some t → k.run.ptype = t := by
    intro k t hk
    cases k <;> cases hk <;> rfl
  refine ⟨_, glif_trip mid pio _ ⟨?_, nofun, nofun, trivial⟩, ?_⟩
  · intro o ho c hc
    cases ho
    obtain ⟨k, hk, rfl⟩ := List.mem_map.1 hc
    obtain ⟨h1, h2, _⟩ := h k hk
    refine ⟨fun e => h1 (List.map_eq_nil_iff.1 e), ?_⟩
    intro p hp
    obtain ⟨q, hq, rfl⟩ := List.mem_map.1 hp
    rcases h2 q hq with e | e | e
    · exact Or.inl (hasked q _ e)
    · exact Or.inr (Or.inl (hasked q _ e))
    · exact Or.inr (Or.inr (hasked q _ e))
  · have hr : resavedOutline ((program n cs bs : Glif PD D).outline.getD []) =
        cs.map fun c => (stored (c.map PointCall.run)).map unsigned := by
      unfold resavedOutline
      rw [List.filter_eq_self.2]
      · exact List.map_map
      · intro c hc
        obtain ⟨k, hk, rfl⟩ := List.mem_map.1 hc
        obtain ⟨h1, h2, h3⟩ := h k hk
        match k, h1, h2, h3 with
        | [q], _, h2, h3 =>
          have hq : q.asked ≠ some .move := fun e => h3 (by simp [e])
          rcases h2 q (by simp) with e | e | e
          · exact absurd e hq
          · simp [loneMove, hasked q _ e]
          · simp [loneMove, hasked q _ e]
        | q :: r :: l, _, _, _ => rfl
    have ho : (saved (program n cs bs : Glif PD D)).outline.getD [] = cs.map fun c => (stored (c.map PointCall.run)).map unsigned := by
      unfold saved
      simp only [hr]
      split
      · rfl
      · next hn =>
        cases cs with
        | nil => rfl
        | cons c cs => simp at hn
    rw [ho, List.forall₂_map_right_iff, List.forall₂_same]
    intro c hc
    constructor
    · obtain ⟨u, v, e1, e2⟩ := C03_same_points (c.map PointCall.run)
      refine ⟨u.map fun z => ((z.1.normZero, z.2.1.normZero), some z.2.2.1, z.2.2.2.1, z.2.2.2.2),
        v.map fun z => ((z.1.normZero, z.2.1.normZero), some z.2.2.1, z.2.2.2.1, z.2.2.2.2), ?_, ?_⟩
      · rw [← List.map_append, ← e1, List.map_map, List.map_map]
        refine List.map_congr_left fun k hk => ?_
        cases k with
        | new => rcases (h c hc).2.1 _ hk with e | e | e <;> cases e
        | place x y t => rfl
        | handles x y a b t => rfl
        | fields x y a b s t n d => rfl
      · rw [← List.map_append, ← e2, List.map_map, List.map_map]
        rfl
    · rw [curveSegments_unsigned]
      obtain ⟨u, v, e1, e2⟩ := C03_same_curves (c.map PointCall.run)
      rw [curveSegments_calls] at e1
      rw [e1, e2, List.map_append, List.map_append]
      exact ⟨_, _, rfl, rfl⟩

/-- **C122**: a new component moves nothing; a default one moves every point to the origin. -/
theorem C122_component (p : Point PD) (h : FinitePoint p) :
    SamePoint (p.applyMatrix GlifComponent.new.m.affine) p ∧
    AtOrigin (p.applyMatrix GlifComponent.blank.m.affine).x (p.applyMatrix GlifComponent.blank.m.affine).y := by
  rw [C39_default_matrix.1]
  exact ⟨C39_identity p h, blank_app32 h.1 h.2.1⟩

/-- **C122**: a new glyph can be taken into the editor and back: then it has an outline, without contours. -/
theorem C122_editor (n : Str) : (MGlif.ofGlif { (Glif.new : Glif PD D) with name := n }).toGlif (D := D) =
    .ok { (Glif.new : Glif PD D) with name := n, outline := some [] } := rfl

/-- **C122**: new points of the editor have no handles apart from them, so that moving them is making them elsewhere;
they are smooth only if asked for and carry no data; by default a hyperbezier point belongs to a curve. -/
theorem C122_editor_points (x y u v : F32) (t : PointType) (k : HyperPointType) (s : Bool) (w : WhichHandle) :
    (∀ p ∈ [MPoint.cubic (Point.fromXYType x y t : Point PD), .quad (.fromXYType x y t), .hyper (.new x y k s)],
      p.getPosition = (x, y) ∧ p.getHandlePosition w = none ∧ p.getName = none) ∧
    (MPoint.cubic (Point.fromXYType x y t : Point PD)).setPosition u v = .cubic (.fromXYType u v t) ∧
    (MPoint.quad (QPoint.fromXYType x y t : QPoint PD)).setPosition u v = .quad (.fromXYType u v t) ∧
    (MPoint.hyper (HyperPoint.new x y k s : HyperPoint PD)).setPosition u v = .hyper (.new u v k s) ∧
    (QPoint.fromXYType x y t : QPoint PD) = ⟨x, y, .colocated, none, t, false, none⟩ ∧
    (HyperPoint.new x y k s : HyperPoint PD) = ⟨x, y, .colocated, .colocated, k, s, none⟩ ∧
    (QPoint.new : QPoint PD) = .fromXYType Flt.zero Flt.zero .offcurve ∧
    (HyperPoint.blank : HyperPoint PD) = .new Flt.zero Flt.zero .curve false := by
  refine ⟨?_, rfl, rfl, rfl, rfl, rfl, rfl, rfl⟩
  simp only [List.mem_cons, List.not_mem_nil, or_false, forall_eq_or_imp, forall_eq]
  refine ⟨⟨rfl, ?_, rfl⟩, ⟨rfl, ?_, rfl⟩, rfl, ?_, rfl⟩ <;> cases w <;> rfl

/-- **C122**: in a debug build the constructors of points panic exactly if an off-curve point is asked for, and
otherwise do the same. -/
theorem C122_debug (x y : F32) (a b : Handle) (s : Bool) (t : PointType) (n : Option Str) (d : Option PD) :
    (t = .offcurve → Point.fromXYTypeDebug (PD := PD) x y t = .panic ∧ Point.fromXYABTypeDebug (PD := PD) x y a b t = .panic ∧
      Point.fromFieldsDebug x y a b s t n d = .panic) ∧
    (t ≠ .offcurve → Point.fromXYTypeDebug (PD := PD) x y t = .ok (PointCall.place x y t).run ∧
      Point.fromXYABTypeDebug (PD := PD) x y a b t = .ok (PointCall.handles x y a b t).run ∧
      Point.fromFieldsDebug x y a b s t n d = .ok (PointCall.fields x y a b s t n d).run) := by
  constructor
  · rintro rfl
    exact ⟨rfl, rfl, rfl⟩
  · intro h
    unfold Point.fromXYTypeDebug Point.fromXYABTypeDebug Point.fromFieldsDebug checkPtype
    simp only [if_neg h]
    exact ⟨rfl, rfl, rfl⟩

/-! A triangle and an open line, made in a program that also refers to two other glyphs: it can be written and comes
back. -/

example (pio : PlistIO D) : ∃ e, glifXml pio (program "aacute".toList
    [polygonCalls false [(Sample.f 0, Sample.f 0), (Sample.f 100, Sample.f 0), (Sample.f 50, Sample.f 80)],
     polygonCalls true [(Sample.f 0, Sample.f 90), (Sample.f 20, Sample.f 110)]] ["a".toList, "acute".toList] : Glif PD D) = .ok e := by
  rw [C122_exact]
  intro c hc
  simp only [List.mem_cons, List.not_mem_nil, or_false] at hc
  rcases hc with rfl | rfl
  · exact ⟨⟨_, List.mem_cons_self, _, rfl, by decide⟩, by simp [polygonCalls, PointCall.asked]⟩
  · exact ⟨⟨_, List.mem_cons_self, _, rfl, by decide⟩, by simp [polygonCalls, PointCall.asked]⟩

example (mid : IOF → IOF → IOF) (pio : PlistIO D) := C122_partial (PD := PD) mid pio "aacute".toList
  [(false, [(Sample.f 0, Sample.f 0), (Sample.f 100, Sample.f 0), (Sample.f 50, Sample.f 80)]),
   (true, [(Sample.f 0, Sample.f 90), (Sample.f 20, Sample.f 110)])] ["a".toList, "acute".toList]
  (by simp)

example : FinitePoint (Point.fromXYABType (Sample.f 3) (Sample.f 4) (.at (Sample.f 5) (Sample.f 6)) .colocated .curve : Point Nat) := by
  refine ⟨?_, ?_, ⟨?_, ?_⟩, trivial⟩ <;> decide +kernel

example (mid : IOF → IOF → IOF) (pio : PlistIO D) := C122_curves (PD := Nat) mid pio "o".toList
  [[.handles (Sample.f 0) (Sample.f 0) (.at (Sample.f 5) (Sample.f 6)) .colocated .curve,
    .fields (Sample.f 9) (Sample.f 9) .colocated (.at (Sample.f 7) (Sample.f 8)) true .curve (some "top".toList) (some 3),
    .place (Sample.f 0) (Sample.f 9) .line]] []
  (by simp [PointCall.asked])

end GP
