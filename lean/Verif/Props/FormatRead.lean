import Verif.Props.Format
import Verif.Props.ReadPoints
/-!
# C89, C90: documents of the format, read and saved again
-/
open Fl Fl.Text
namespace GP
open Spec
variable {PD D : Type}

/-! ## What every conforming document satisfies -/

theorem someNumber_isNumber {s : Str} (h : SomeNumber s) : IsNumber s := by
  obtain ⟨neg, m, fl, hp⟩ := h
  exact ⟨_, (C79_float b32_p2 s _).1 (floatText_plain hp)⟩

theorem representable_some {s : Str} (h : Representable s) : SomeNumber s := by
  obtain ⟨neg, m, fl, k, hp, -⟩ := h
  exact ⟨neg, m, fl, hp⟩

theorem fourFields_onlyFour {s a b c d : Str} (h : OnlyFour s a b c d) : FourFields s a b c d := by
  obtain ⟨h1, h2, h3, h4, h5⟩ := h
  exact ⟨h1, h2, h3, h4, [], by rw [h5]; simp, Or.inl rfl⟩

theorem upTo_some {n : Nat} {s : Str} (h : UpTo n s) : SomeNumber s := by
  obtain ⟨neg, m, fl, hp, -⟩ := h
  exact ⟨neg, m, fl, hp⟩

theorem colorText_ok {e : Element} (h : May e "color" ColorText) : ColorOk e := by
  intro s hs
  obtain ⟨r, g, b, a, h4, h1, h2, h3, h4'⟩ := h s hs
  exact ⟨r, g, b, a, fourFields_onlyFour h4, someNumber_isNumber (upTo_some h1), someNumber_isNumber (upTo_some h2),
    someNumber_isNumber (upTo_some h3), someNumber_isNumber (upTo_some h4')⟩

theorem matrixOk_of {num : Str → Prop} (hnum : ∀ s, num s → SomeNumber s) {e : Element} (h : ∀ k ∈ matrixAttrs, May e k num) :
    MatrixOk e := fun k hk s hs => someNumber_isNumber (hnum s (h k hk s hs))

theorem needs_number {num : Str → Prop} (hnum : ∀ s, num s → SomeNumber s) {e : Element} {k : String} (h : Needs e k num) :
    HasNumber e k := by
  obtain ⟨s, h1, h2⟩ := h
  exact ⟨s, h1, someNumber_isNumber (hnum s h2)⟩

theorem may_number {num : Str → Prop} (hnum : ∀ s, num s → SomeNumber s) {e : Element} {k : String} (h : May e k num)
    (hk : e.get k ≠ none) : HasNumber e k := by
  obtain ⟨s, hs⟩ := Option.ne_none_iff_exists'.1 hk
  exact ⟨s, hs, someNumber_isNumber (hnum s (h s hs))⟩

/-- A document as the format wants it is read exactly if its width, if it has one, can be read, its
guidelines have both coordinates, its anchors are at integers unless everything is mended, and no
contour that starts like a cubic one has a quadratic segment. -/
theorem C89_partial (mid : IOF → IOF → IOF) (pio : PlistIO D) (ped : Pedantry) (root : Element) (h : Conforms SomeNumber root) :
    (∃ g : Glif PD D, readGlif mid pio ped root = .ok g) ↔
      (∀ e ∈ named "advance" root.children, ∃ w, e.get "width" = some w ∧ WidthOk ped w) ∧
      (∀ e ∈ named "guideline" root.children, e.get "x" ≠ none ∧ e.get "y" ≠ none) ∧
      (ped.mend = .always ∨ ∀ e ∈ named "anchor" root.children, HasInteger e "x" ∧ HasInteger e "y") ∧
      ∀ c ∈ contoursOf root, ¬ QuadraticInCubic c := by
  rw [read_iff]
  have id' : ∀ s, SomeNumber s → SomeNumber s := fun _ h => h
  constructor
  · rintro ⟨ha, hq⟩
    refine ⟨?_, ?_, ?_, fun c hc hqc => hq ⟨c, hc, hqc⟩⟩
    · intro e he
      refine ha.advance e ?_
      have := h.once "advance" (by simp)
      match hn : named "advance" root.children, he, this with
      | [e'], he, _ => rw [List.mem_singleton.1 he]; rfl
    · intro e he
      obtain ⟨⟨s, h1, -⟩, ⟨t, h2, -⟩, -⟩ := ha.guideline e he
      rw [h1, h2]
      simp
    · by_cases hm : ped.mend = .always
      · exact Or.inl hm
      · refine Or.inr fun e he => ?_
        rcases (ha.anchor e he).2.2 with h | h
        · exact absurd h hm
        · exact h
  · rintro ⟨h1, h2, h3, h4⟩
    refine ⟨⟨h.tag, h.format, ?_, ?_, ?_, ?_, ?_, ?_, ?_⟩, fun ⟨c, hc, hq⟩ => h4 c hc hq⟩
    · obtain ⟨n, hn, -⟩ := h.name
      exact ⟨n, hn⟩
    · intro e he
      exact h1 e (List.mem_of_head? he)
    · intro e he
      obtain ⟨-, x, hx, c, hc⟩ := h.unicode e he
      exact ⟨x, hx, c, Or.inl hc⟩
    · intro e he
      obtain ⟨-, hx, hy, -⟩ := h.anchor e he
      refine ⟨needs_number id' hx, needs_number id' hy, ?_⟩
      rcases h3 with h3 | h3
      · exact Or.inl h3
      · exact Or.inr (h3 e he)
    · intro e he
      obtain ⟨-, ⟨f, hf, -⟩, hc, hm⟩ := h.image e he
      exact ⟨⟨f, hf⟩, matrixOk_of id' hm, colorText_ok hc⟩
    · intro e he
      obtain ⟨-, hx, hy, ha, hc, -, hi⟩ := h.guideline e he
      obtain ⟨nx, ny⟩ := h2 e he
      refine ⟨may_number id' hx nx, may_number id' hy ny, ?_, colorText_ok hc⟩
      exact may_number (num := fun s => SomeNumber s ∧ UpTo 360 s) (fun _ h => h.1) ha (hi.2 ⟨nx, ny⟩)
    · intro o ho
      obtain ⟨-, -, hc, hp⟩ := h.outline o (List.mem_of_head? ho)
      refine ⟨?_, ?_⟩
      · intro c hc' p hp'
        obtain ⟨-, -, hpt, -⟩ := hc c hc'
        obtain ⟨-, hx, hy, -⟩ := hpt p hp'
        exact ⟨needs_number id' hx, needs_number id' hy⟩
      · intro c hc'
        obtain ⟨-, ⟨b, hb, -⟩, hm⟩ := hp c hc'
        exact ⟨matrixOk_of id' hm, b, hb⟩

/-! ## C90 -/

/-- An integer, or a float with `F`. -/
def IofIn (F : F32 → Prop) (x : IOF) : Prop := (∃ i h, x = .int i h) ∨ ∃ f, x = .float f ∧ F f

/-- The coefficients have `F`. -/
def MatrixIn (F : F32 → Prop) (m : Mat6) : Prop :=
  IofIn F m.xScale ∧ IofIn F m.xyScale ∧ IofIn F m.yxScale ∧ IofIn F m.yScale ∧ IofIn F m.xOffset ∧ IofIn F m.yOffset

/-- The place of the handle has `F`, if it is anywhere. -/
def HandleIn (F : F32 → Prop) (h : Handle) : Prop := ∀ x y, h = .at x y → F x ∧ F y

/-- The places of the point and its handles have `F`. -/
def PlacedIn (F : F32 → Prop) (p : Point PD) : Prop := F p.x ∧ F p.y ∧ HandleIn F p.a ∧ HandleIn F p.b

/-- What is read of a number with `num` has `F`. -/
structure Tells (num : Str → Prop) (F : F32 → Prop) : Prop where
  some : ∀ {s}, num s → SomeNumber s
  float : ∀ {s x}, num s → FloatText b32 s x → F x
  int : ∀ i h, F (IOF.int i h).toF32
  round : ∀ {ped : Pedantry} {x : IOF} {y : F32}, F x.toF32 → AnchorCoord ped x y → F y

theorem tells_finite : Tells Representable IsFinite where
  some := representable_some
  float := floatText_finite
  int i h := toF32_finite (Or.inl ⟨i, h, rfl⟩)
  round := by
    intro ped x y hf h
    rcases h with ⟨-, h⟩ | ⟨-, rfl⟩
    · obtain ⟨neg, k, hk, e, hk'⟩ := hf
      rw [e] at h
      rcases h with ⟨h, -⟩ | ⟨-, M, j, hj, hj', rfl, -⟩
      · exact absurd h hk'
      · exact ⟨_, _, _, rfl, hj'⟩
    · exact hf

/-- Nothing needs to be known of the numbers. -/
theorem tells_some : Tells SomeNumber fun _ => True := ⟨id, fun _ _ => trivial, fun _ _ => trivial, fun _ _ => trivial⟩

variable {num : Str → Prop} {F : F32 → Prop}

theorem iofIn_toF32 (hF : Tells num F) {x : IOF} (h : IofIn F x) : F x.toF32 := by
  rcases h with ⟨i, h, rfl⟩ | ⟨f, rfl, hf⟩
  · exact hF.int i h
  · exact hf

theorem numberText_in (hF : Tells num F) {s : Str} {x : IOF} (hs : num s) (h : NumberText s x) : IofIn F x := by
  rcases h with ⟨i, h, rfl, -⟩ | ⟨-, f, rfl, hf⟩
  · exact Or.inl ⟨i, h, rfl⟩
  · exact Or.inr ⟨f, rfl, hF.float hs hf⟩

/-- Whatever place the `<point>` says has `F`. -/
def PlaceIn (F : F32 → Prop) (e : Element) : Prop := ∀ x y, PlaceSays e x y → F x ∧ F y

theorem attr_finite (hF : Tells num F) {e : Element} {k : String} {x : IOF} (h : Needs e k num) (hx : AttrNumber e k x) : IofIn F x := by
  obtain ⟨s, h1, h2⟩ := h
  obtain ⟨t, h3, h4⟩ := hx
  cases h1.symm.trans h3
  exact numberText_in hF h2 h4

theorem point_finite (hF : Tells num F) {e : Element} (h : PointForm num e) : PlaceIn F e := by
  rintro x y ⟨X, Y, hx, hy, rfl, rfl⟩
  exact ⟨iofIn_toF32 hF (attr_finite hF h.2.1 hx), iofIn_toF32 hF (attr_finite hF h.2.2.1 hy)⟩

theorem handle_finite {o : Option Element} {h : Handle} (ho : ∀ e, o = some e → PlaceIn F e) (hh : HandleSays o h) :
    HandleIn F h := by
  intro x y e
  cases o with
  | none => rw [show h = .colocated from hh] at e; cases e
  | some e' =>
    obtain ⟨x', y', rfl, hp⟩ := hh
    cases e
    exact ho e' rfl _ _ hp

theorem curves_fit {b : Option Element} {e : Element} {segs : List (List Element × Element)} {back : List Element}
    {c : Contour PD} (h : Curves b e segs back c) : (∀ o, b = some o → PlaceIn F o) → PlaceIn F e →
    (∀ s ∈ segs, (∀ o ∈ s.1, PlaceIn F o) ∧ PlaceIn F s.2) → (∀ o ∈ back, PlaceIn F o) →
    (∀ p ∈ c, PlacedIn F p) ∧ ∃ p r, c = p :: r ∧ PointSays e p ∧ ∀ q ∈ r, ∃ s ∈ segs, PointSays s.2 q := by
  induction h with
  | last b e back p hp hb ha =>
    intro fb fe _ fk
    refine ⟨?_, p, [], rfl, hp, by simp⟩
    intro q hq
    rw [List.mem_singleton.1 hq]
    obtain ⟨fx, fy⟩ := fe _ _ hp.1
    exact ⟨fx, fy, handle_finite (fun o ho => fk o (List.mem_of_getElem? ho)) ha, handle_finite fb hb⟩
  | more b e offs e' segs back p c hp hb ha _ ih =>
    intro fb fe fs fk
    obtain ⟨fo, fe'⟩ := fs _ List.mem_cons_self
    obtain ⟨i1, p', r, rfl, i2, i3⟩ := ih (fun o ho => fo o (List.mem_of_getElem? ho)) fe'
      (fun s hs => fs s (List.mem_cons_of_mem _ hs)) fk
    refine ⟨?_, p, p' :: r, rfl, hp, ?_⟩
    · intro q hq
      rcases List.mem_cons.1 hq with rfl | hq
      · obtain ⟨fx, fy⟩ := fe _ _ hp.1
        exact ⟨fx, fy, handle_finite (fun o ho => fo o (List.mem_of_getElem? ho)) ha, handle_finite fb hb⟩
      · exact i1 q hq
    · intro q hq
      rcases List.mem_cons.1 hq with rfl | hq
      · exact ⟨_, List.mem_cons_self, i2⟩
      · obtain ⟨s, hs, h⟩ := i3 q hq
        exact ⟨s, List.mem_cons_of_mem _ hs, h⟩

theorem move_ofType {e : Element} {p : Point PD} (h : PointSays e p) (hm : p.ptype = .move) : OfType e "move" := by
  rcases h.2.1 with ⟨h, -⟩ | ⟨-, h⟩ | ⟨-, h⟩ | ⟨-, h⟩ | ⟨-, h⟩
  · exact h
  all_goals rw [h] at hm; cases hm

/-- A midpoint of numbers with `F` has `F`. -/
def MidIn (F : F32 → Prop) (mid : IOF → IOF → IOF) : Prop := ∀ a b, IofIn F a → IofIn F b → IofIn F (mid a b)

theorem plain_fit {e : Element} {p : Point PD} (h : Plain e p) (he : PlaceIn F e) : PlacedIn F p := by
  obtain ⟨h1, h2, h3⟩ := h
  obtain ⟨fx, fy⟩ := he _ _ h1.1
  refine ⟨fx, fy, ?_, ?_⟩
  · intro x y e'; rw [h2] at e'; cases e'
  · intro x y e'; rw [h3] at e'; cases e'

/-- A point whose place has `F` that is no `move`, unless a `<point>` among `es` is one. -/
def GoodAmong (F : F32 → Prop) (es : List Element) (p : Point PD) : Prop := PlacedIn F p ∧ (p.ptype = .move → ∃ e ∈ es, OfType e "move")

theorem goodAmong_mono {es fs : List Element} (h : ∀ e ∈ es, e ∈ fs) {p : Point PD} (hp : GoodAmong F es p) : GoodAmong F fs p :=
  ⟨hp.1, fun hm => by obtain ⟨e, he, h'⟩ := hp.2 hm; exact ⟨e, h e he, h'⟩⟩

theorem offs_fit (hF : Tells num F) {mid : IOF → IOF → IOF} (hm : MidIn F mid) {es : List Element} {c : Contour PD} (h : Offs mid es c) :
    (∀ e ∈ es, PointForm num e) → ∀ p ∈ c, GoodAmong F es p := by
  induction h with
  | none => intro _ p hp; cases hp
  | one e p hp =>
    intro he q hq
    rw [List.mem_singleton.1 hq]
    exact ⟨plain_fit hp (point_finite hF (he e List.mem_cons_self)), fun h => ⟨e, List.mem_cons_self, move_ofType hp.1 h⟩⟩
  | more e f es p q c hp hq _ ih =>
    intro he r hr
    rcases List.mem_cons.1 hr with rfl | hr
    · exact ⟨plain_fit hp (point_finite hF (he e List.mem_cons_self)), fun h => ⟨e, List.mem_cons_self, move_ofType hp.1 h⟩⟩
    · rcases List.mem_cons.1 hr with rfl | hr
      · obtain ⟨x, y, x', y', h1, h2, h3, h4, rfl⟩ := hq
        have e1 := he e List.mem_cons_self
        have e2 := he f (List.mem_cons_of_mem _ List.mem_cons_self)
        refine ⟨⟨iofIn_toF32 hF (hm _ _ (attr_finite hF e1.2.1 h1) (attr_finite hF e2.2.1 h3)),
          iofIn_toF32 hF (hm _ _ (attr_finite hF e1.2.2.1 h2) (attr_finite hF e2.2.2.1 h4)), ?_, ?_⟩, nofun⟩
        · intro x y e'; cases e'
        · intro x y e'; cases e'
      · exact goodAmong_mono (fun e he => List.mem_cons_of_mem _ he) (ih (fun e h => he e (List.mem_cons_of_mem _ h)) r hr)

theorem quads_fit (hF : Tells num F) {mid : IOF → IOF → IOF} (hm : MidIn F mid) {segs : List (List Element × Element)} {c : Contour PD}
    (h : Quads mid segs c) : (∀ e ∈ segs.flatMap (fun s => s.1 ++ [s.2]), PointForm num e) →
    ∀ p ∈ c, GoodAmong F (segs.flatMap (fun s => s.1 ++ [s.2])) p := by
  induction h with
  | none => intro _ p hp; cases hp
  | more offs e segs c p d ho hp _ ih =>
    intro he q hq
    simp only [List.flatMap_cons, List.mem_append, List.mem_singleton] at he
    rcases List.mem_append.1 hq with hq | hq
    · refine goodAmong_mono ?_ (offs_fit hF hm ho (fun e h => he e (Or.inl (Or.inl h))) q hq)
      intro e h
      simp [h]
    · rcases List.mem_cons.1 hq with rfl | hq
      · refine ⟨plain_fit hp (point_finite hF (he e (Or.inl (Or.inr rfl)))), fun h => ⟨e, by simp, move_ofType hp.1 h⟩⟩
      · refine goodAmong_mono ?_ (ih (fun e h => he e (Or.inr h)) q hq)
        intro e h
        rw [List.flatMap_cons]
        exact List.mem_append_right _ h

theorem not_off_types {e : Element} (h : ¬ IsOff e) : OfType e "move" ∨ OfType e "line" ∨ OfType e "curve" ∨ OfType e "qcurve" := by
  unfold IsOff at h
  by_contra hc
  refine h fun t ht hm => hc ?_
  unfold onCurveTypes at hm
  simp only [List.mem_cons, List.not_mem_nil, or_false] at hm
  rcases hm with rfl | rfl | rfl | rfl
  · exact Or.inl ht
  · exact Or.inr (Or.inl ht)
  · exact Or.inr (Or.inr (Or.inl ht))
  · exact Or.inr (Or.inr (Or.inr ht))

theorem last_three {α : Type} {l : List α} (h : 2 < l.length) : ∃ u a b c, l = u ++ [a, b, c] := by
  refine ⟨l.take (l.length - 3), ?_⟩
  have h3 : (l.drop (l.length - 3)).length = 3 := by rw [List.length_drop]; omega
  match hd : l.drop (l.length - 3), h3 with
  | [a, b, c], _ => exact ⟨a, b, c, by rw [← hd, List.take_append_drop]⟩

theorem segments_short {el : Element} (h : ContourForm num el) {e : Element}
    {segs : List (List Element × Element)} {back : List Element} (hf : named "point" el.children = filePoints e segs back)
    (hs : Segmented e segs back) (hq : ∀ s ∈ segs, ¬ OfType s.2 "qcurve") : ∀ s ∈ segs, s.1.length ≤ 2 := by
  intro s hm
  by_contra hl
  obtain ⟨u, a, b, c, hu⟩ := last_three (Nat.lt_of_not_le hl)
  obtain ⟨A, B, rfl⟩ := List.append_of_mem hm
  obtain ⟨ho, hon⟩ := hs.2.1 s hm
  obtain ⟨-, -, -, hmv, hline, hcurve⟩ := h
  rw [hf] at hmv hline hcurve
  have hpts : filePoints e (A ++ s :: B) back =
      (e :: A.flatMap (fun s => s.1 ++ [s.2]) ++ u) ++ ([a, b, c, s.2] ++ (B.flatMap (fun s => s.1 ++ [s.2]) ++ back)) := by
    unfold filePoints
    rw [List.flatMap_append, List.flatMap_cons, hu]
    simp
  have oc : IsOff a ∧ IsOff b ∧ IsOff c := by
    rw [hu] at ho
    exact ⟨ho a (by simp), ho b (by simp), ho c (by simp)⟩
  rcases not_off_types hon with ht | ht | ht | ht
  · refine hmv s.2 ?_ ht
    rw [hpts]
    simp
  · refine hline c s.2 ((B.flatMap (fun s => s.1 ++ [s.2]) ++ back) ++ ((e :: A.flatMap (fun s => s.1 ++ [s.2]) ++ u) ++ [a, b]))
      ?_ (Or.inr ht) oc.2.2
    refine ⟨(e :: A.flatMap (fun s => s.1 ++ [s.2]) ++ u) ++ [a, b], [c, s.2] ++ (B.flatMap (fun s => s.1 ++ [s.2]) ++ back), ?_, ?_⟩
    · rw [hpts]; simp
    · simp
  · refine hcurve a b c s.2 ((B.flatMap (fun s => s.1 ++ [s.2]) ++ back) ++ (e :: A.flatMap (fun s => s.1 ++ [s.2]) ++ u))
      ?_ ht oc
    refine ⟨e :: A.flatMap (fun s => s.1 ++ [s.2]) ++ u, [a, b, c, s.2] ++ (B.flatMap (fun s => s.1 ++ [s.2]) ++ back), ?_, ?_⟩
    · rw [hpts]
    · simp
  · exact hq s hm ht

/-- The contour that a conforming `<contour>` is read as. -/
theorem contour_fits (hF : Tells num F) {el : Element} (h : ContourForm num el) (hq : ¬ QuadraticInCubic el) (hd : ¬ Dropped el)
    {mid : IOF → IOF → IOF}
    (hmid : ∀ e, (named "point" el.children).head? = some e → OfType e "qcurve" → MidIn F mid) {c : Contour PD}
    (h86 : ∀ e segs back, named "point" el.children = filePoints e segs back → Segmented e segs back →
        (OfType e "move" ∨ OfType e "line" ∨ OfType e "curve") → (∀ s ∈ segs, s.1.length ≤ 2) →
        ∃ b, (OfType e "move" → b = none) ∧ (¬ OfType e "move" → b = back[1]?) ∧ Curves b e segs back c)
    (h87 : ∀ e segs back, named "point" el.children = filePoints e segs back → Segmented e segs back →
        OfType e "qcurve" → ∃ p d f, c = p :: d ++ f ∧ Plain e p ∧ Quads mid segs d ∧ QuadBack mid p back f) :
    (∀ p ∈ c, PlacedIn F p) ∧ ∀ p ∈ c.tail, p.ptype ≠ .move := by
  cases hn : named "point" el.children with
  | nil => unfold Dropped at hd; rw [hn] at hd; exact absurd trivial hd
  | cons e es =>
    have he : ¬ IsOff e := by
      unfold Dropped at hd
      rw [hn] at hd
      exact fun h => hd (Or.inl h)
    obtain ⟨segs, back, hf, hs⟩ := C86_segments e es he
    rw [hf] at hn
    have hpf : ∀ x ∈ filePoints e segs back, PointForm num x := by rw [← hn]; exact h.2.2.1
    have hmv := h.2.2.2.1
    rw [hn] at hmv
    have hmem : ∀ s ∈ segs, (∀ o ∈ s.1, o ∈ (filePoints e segs back).tail) ∧ s.2 ∈ (filePoints e segs back).tail := by
      intro s hs
      unfold filePoints
      simp only [List.cons_append, List.tail_cons, List.mem_append, List.mem_flatMap]
      exact ⟨fun o ho => Or.inl ⟨s, hs, Or.inl ho⟩, Or.inl ⟨s, hs, Or.inr (List.mem_singleton.2 rfl)⟩⟩
    have hmb : ∀ o ∈ back, o ∈ (filePoints e segs back).tail := by
      intro o ho
      unfold filePoints
      simp only [List.cons_append, List.tail_cons, List.mem_append]
      exact Or.inr ho
    have tl : ∀ {x}, x ∈ (filePoints e segs back).tail → PointForm num x := fun hx => hpf _ (List.mem_of_mem_tail hx)
    have e0 : PointForm num e := hpf e (by unfold filePoints; simp)
    have cubic : (OfType e "move" ∨ OfType e "line" ∨ OfType e "curve") →
        (∀ p ∈ c, PlacedIn F p) ∧ ∀ p ∈ c.tail, p.ptype ≠ .move := by
      intro ht
      have hnq : ∀ s ∈ segs, ¬ OfType s.2 "qcurve" := by
        intro s hs' hqs
        refine hq ⟨e, es, by rw [hn, hf], ht, s.2, ?_, hqs⟩
        have := (hmem s hs').2
        rw [← hf] at this
        exact this
      obtain ⟨b, hb1, hb2, hcv⟩ := h86 e segs back hn hs ht (segments_short h hn hs hnq)
      have hb : ∀ o, b = some o → PlaceIn F o := by
        intro o ho
        by_cases hm : OfType e "move"
        · rw [hb1 hm] at ho; cases ho
        · rw [hb2 hm] at ho
          exact point_finite hF (tl (hmb o (List.mem_of_getElem? ho)))
      obtain ⟨r1, p, r, rfl, -, r2⟩ := curves_fit hcv hb (point_finite hF e0)
        (fun s hs => ⟨fun o ho => point_finite hF (tl ((hmem s hs).1 o ho)), point_finite hF (tl (hmem s hs).2)⟩)
        (fun o ho => point_finite hF (tl (hmb o ho)))
      refine ⟨r1, ?_⟩
      intro q hqm hm
      obtain ⟨s, hs, hsq⟩ := r2 q hqm
      exact hmv s.2 (hmem s hs).2 (move_ofType hsq hm)
    rcases not_off_types he with ht | ht | ht | ht
    · exact cubic (Or.inl ht)
    · exact cubic (Or.inr (Or.inl ht))
    · exact cubic (Or.inr (Or.inr ht))
    · have hm := hmid e (by rw [hn]; rfl) ht
      obtain ⟨p, d, f, rfl, h1, h2, h3⟩ := h87 e segs back hn hs ht
      have hseg : ∀ x ∈ segs.flatMap (fun s => s.1 ++ [s.2]), x ∈ (filePoints e segs back).tail := by
        intro x hx
        unfold filePoints
        simp only [List.cons_append, List.tail_cons]
        exact List.mem_append_left _ hx
      have fp := plain_fit h1 (point_finite hF e0)
      have gd : ∀ q ∈ d, GoodAmong F (filePoints e segs back).tail q := fun q hq =>
        goodAmong_mono hseg (quads_fit hF hm h2 (fun x hx => tl (hseg x hx)) q hq)
      have gf : ∀ q ∈ f, GoodAmong F (filePoints e segs back).tail q := by
        rcases h3 with ⟨rfl, rfl⟩ | ⟨o, d', p', x, y, ho, hoff, rfl, hx, hy, rfl⟩
        · intro q hq; cases hq
        · intro q hq
          rcases List.mem_append.1 hq with hq | hq
          · exact goodAmong_mono hmb (offs_fit hF hm hoff (fun x hx => tl (hmb x hx)) q hq)
          · rw [List.mem_singleton.1 hq]
            have fo := tl (hmb o (List.mem_of_getLast? ho))
            refine ⟨⟨iofIn_toF32 hF (hm _ _ (attr_finite hF fo.2.1 hx) (Or.inr ⟨_, rfl, fp.1⟩)),
              iofIn_toF32 hF (hm _ _ (attr_finite hF fo.2.2.1 hy) (Or.inr ⟨_, rfl, fp.2.1⟩)), ?_, ?_⟩, nofun⟩
            · intro x y e'; cases e'
            · intro x y e'; cases e'
      have all : ∀ q ∈ d ++ f, GoodAmong F (filePoints e segs back).tail q := by
        intro q hq
        rcases List.mem_append.1 hq with h | h
        · exact gd q h
        · exact gf q h
      rw [List.cons_append]
      refine ⟨?_, ?_⟩
      · intro q hq
        rcases List.mem_cons.1 hq with rfl | hq
        · exact fp
        · exact (all q hq).1
      · intro q hq hmq
        obtain ⟨x, hx, hxm⟩ := (all q hq).2 hmq
        exact hmv x hx hxm

theorem matrix_finite (hF : Tells num F) {one : IOF} (h1 : IofIn F one) {e : Element} {m : Mat6} (h : ∀ k ∈ matrixAttrs, May e k num)
    (hm : MatrixSays one e m) : MatrixIn F m := by
  have key : ∀ {k : String} {d x : IOF}, k ∈ matrixAttrs → IofIn F d → AttrNumberOr e k d x → IofIn F x := by
    intro k d x hk hd hx
    rcases hx with ⟨s, hs, hn⟩ | ⟨-, rfl⟩
    · exact numberText_in hF (h k hk s hs) hn
    · exact hd
  have z : IofIn F (.int 0) := Or.inl ⟨_, _, rfl⟩
  obtain ⟨a, b, c, d, f, g⟩ := hm
  exact ⟨key (by decide) h1 a, key (by decide) z b, key (by decide) z c, key (by decide) h1 d, key (by decide) z f, key (by decide) z g⟩

theorem color_within {e : Element} {c : Color} (h : May e "color" ColorText) (hc : ColorSays e (some c)) : ColorWithin c := by
  rcases hc with ⟨-, hc⟩ | ⟨s, col, r, g, b, a, hs, hc, h4, hr, hg, hb, ha⟩
  · cases hc
  · cases hc
    obtain ⟨r', g', b', a', h4', ur, ug, ub, ua⟩ := h s hs
    obtain ⟨l, e1⟩ := (splitOn_four _ _ _ _ _).2 h4
    obtain ⟨l', e2⟩ := (splitOn_four _ _ _ _ _).2 (fourFields_onlyFour h4')
    rw [e1] at e2
    cases e2
    exact ⟨upTo_within bound_one ur hr, upTo_within bound_one ug hg, upTo_within bound_one ub hb, upTo_within bound_one ua ha⟩

theorem identifiers_eq {α : Type} {rel : Element → α → Prop} {f : α → Option Str} (hf : ∀ e a, rel e a → f a = e.get "identifier")
    {es : List Element} {l : List α} (h : List.Forall₂ rel es l) : l.filterMap f = es.filterMap (·.get "identifier") := by
  induction h with
  | nil => rfl
  | cons h _ ih => rw [List.filterMap_cons, List.filterMap_cons, hf _ _ h, ih]

/-- The glyph fits the format, but for its numbers, which have `F`. -/
structure FitsIn (F : F32 → Prop) (g : Glif PD D) : Prop where
  name : IsName g.name
  width : ∀ w, g.width = some w → w < 2 ^ 64
  anchors : ∀ a ∈ g.anchors, F a.x ∧ F a.y
  image : g.images.length ≤ 1
  images : ∀ i ∈ g.images, i.filename ≠ [] ∧ i.identifier = none ∧ MatrixIn F i.m
  guidelines : ∀ l ∈ g.guidelines, F l.x ∧ F l.y ∧ IofIn F l.angle ∧ Within 360 l.angle ∧ ∀ c, l.color = some c → ColorWithin c
  components : ∀ c ∈ g.components.vec, IsName c.base ∧ MatrixIn F c.m
  identifiers : ∀ s ∈ g.guidelines.filterMap (·.identifier) ++ g.components.vec.filterMap (·.identifier), IsIdentifier s
  unique : (g.guidelines.filterMap (·.identifier) ++ g.components.vec.filterMap (·.identifier)).Nodup
  points : ∀ o, g.outline = some o → ∀ c ∈ o, ∀ p ∈ c, PlacedIn F p
  moves : ∀ o, g.outline = some o → ∀ c ∈ o, ∀ p ∈ c.tail, p.ptype ≠ .move

open Classical in
/-- What is read from a document of the format fits the format, its numbers having what numbers of the document have. -/
theorem read_fitsIn (hF : Tells num F) (mid : IOF → IOF → IOF) (pio : PlistIO D) (ped : Pedantry) (root : Element) (g : Glif PD D)
    (hr : readGlif mid pio ped root = .ok g) (h : Conforms num root)
    (hmid : (∃ c ∈ contoursOf root, ∃ e, (named "point" c.children).head? = some e ∧ OfType e "qcurve") → MidIn F mid) : FitsIn F g := by
  have hs := C85_says mid pio ped root g hr
  have hq := ((read_iff mid pio ped root).1 ⟨g, hr⟩).2
  have hol : ∀ c ∈ contoursOf root, ContourForm num c := by
    intro c hc
    unfold contoursOf at hc
    split at hc
    · next o ho => exact (h.outline o (List.mem_of_head? ho)).2.2.1 c hc
    · cases hc
  have hcp : ∀ c ∈ componentsOf root, ComponentForm num c := by
    intro c hc
    unfold componentsOf at hc
    split at hc
    · next o ho => exact (h.outline o (List.mem_of_head? ho)).2.2.2 c hc
    · cases hc
  have hids : g.guidelines.filterMap (·.identifier) ++ g.components.vec.filterMap (·.identifier) =
      (named "guideline" root.children ++ componentsOf root).filterMap (·.get "identifier") := by
    rw [List.filterMap_append, identifiers_eq (fun e a h => h.2.2.2.2.2) hs.guidelines,
      identifiers_eq (fun e a h => h.2.2.1) hs.components]
  have hidl : ∃ l, (identified root).filterMap (·.get "identifier") =
      (named "guideline" root.children ++ componentsOf root).filterMap (·.get "identifier") ++ l := by
    unfold identified
    rw [List.append_assoc, List.append_assoc, List.filterMap_append]
    exact ⟨_, rfl⟩
  obtain ⟨l, hl⟩ := hidl
  have hpts : ∀ c ∈ g.outline.getD [], (∀ p ∈ c, PlacedIn F p) ∧ ∀ p ∈ c.tail, p.ptype ≠ .move := by
    intro c hc
    have h86 := C86_partial mid pio ped root g hr
    have h87 := C87_quadratic mid pio ped root g hr
    rw [List.forall₂_iff_get] at h86 h87
    obtain ⟨i, hi, rfl⟩ := List.getElem_of_mem hc
    have hi' : i < ((contoursOf root).filter fun e => ¬ Dropped e).length := by rw [h86.1]; exact hi
    have hm := List.mem_filter.1 (List.getElem_mem hi')
    have hm2 : ¬ Dropped ((contoursOf root).filter fun e => ¬ Dropped e)[i] := by simpa using hm.2
    exact contour_fits hF (hol _ hm.1) (fun hqc => hq ⟨_, hm.1, hqc⟩) hm2
      (fun e he ht => hmid ⟨_, hm.1, e, he, ht⟩) (h86.2 i hi' hi) (h87.2 i hi' hi)
  refine ⟨?_, ?_, ?_, ?_, ?_, ?_, ?_, ?_, ?_, ?_, ?_⟩
  · obtain ⟨n, hn, hn'⟩ := h.name
    cases hs.name.symm.trans hn
    exact hn'
  · intro w hw
    have := hs.width
    rw [hw] at this
    cases he : (named "advance" root.children).head? with
    | none => rw [he] at this; cases this
    | some e =>
      rw [he] at this
      cases this with
      | some this =>
        obtain ⟨t, -, ⟨-, h⟩ | ⟨-, -, f, -, -, hf⟩⟩ := this
        · exact h
        · unfold TruncatesTo at hf
          split at hf
          · rw [hf]; decide
          · rw [hf]; decide
          · split at hf
            · rw [hf]; decide
            · rcases hf with ⟨h, -⟩ | ⟨h, -⟩
              · exact Nat.lt_of_lt_of_le h (by decide)
              · rw [h]; decide
  · intro a ha
    obtain ⟨e, he, ⟨x, y, hx, hy, cx, cy, -⟩, -⟩ := forall₂_mem_right hs.anchors ha
    obtain ⟨-, nx, ny, -⟩ := h.anchor e he
    exact ⟨hF.round (iofIn_toF32 hF (attr_finite hF nx hx)) cx, hF.round (iofIn_toF32 hF (attr_finite hF ny hy)) cy⟩
  · rw [← hs.images.length_eq]
    exact h.once "image" (by simp)
  · intro i hi
    obtain ⟨e, he, h1, h2, h3, -⟩ := forall₂_mem_right hs.images hi
    obtain ⟨ho, ⟨f, hf, hf'⟩, -, hm⟩ := h.image e he
    cases h1.symm.trans hf
    refine ⟨hf', ?_, matrix_finite hF (Or.inl ⟨_, _, rfl⟩) hm h2⟩
    rw [h3]
    cases hid : e.get "identifier" with
    | none => rfl
    | some s => exact absurd (ho _ _ hid) (by decide)
  · intro gl hgl
    obtain ⟨e, he, ⟨s, h1, h1'⟩, ⟨t, h2, h2'⟩, h3, h4, -⟩ := forall₂_mem_right hs.guidelines hgl
    obtain ⟨-, mx, my, ma, mc, -⟩ := h.guideline e he
    obtain ⟨u, h5, h5'⟩ := h3
    obtain ⟨a1, a2⟩ := ma u h5
    refine ⟨hF.float (mx s h1) h1', hF.float (my t h2) h2', numberText_in hF a1 h5', upTo_within bound_360 a2 h5', ?_⟩
    intro c hc
    rw [hc] at h4
    exact color_within mc h4
  · intro c hc
    obtain ⟨e, he, h1, h2, -⟩ := forall₂_mem_right hs.components hc
    obtain ⟨-, ⟨b, hb, hb'⟩, hm⟩ := hcp e he
    cases h1.symm.trans hb
    exact ⟨hb', matrix_finite hF (Or.inr ⟨_, rfl, iofIn_toF32 hF (x := .int 1) (Or.inl ⟨_, _, rfl⟩)⟩) hm h2⟩
  · intro s hs'
    rw [hids] at hs'
    exact h.identifiers s (by rw [hl]; exact List.mem_append_left _ hs')
  · rw [hids]
    have := h.unique
    rw [hl] at this
    exact (List.nodup_append.1 this).1
  · intro o ho c hc
    exact (hpts c (by rw [ho]; exact hc)).1
  · intro o ho c hc
    exact (hpts c (by rw [ho]; exact hc)).2

/-- What is read from a document of the format fits the format. -/
theorem read_fits (mid : IOF → IOF → IOF) (pio : PlistIO D) (ped : Pedantry) (root : Element) (g : Glif PD D)
    (hr : readGlif mid pio ped root = .ok g) (h : Conforms Representable root)
    (hmid : (∃ c ∈ contoursOf root, ∃ e, (named "point" c.children).head? = some e ∧ OfType e "qcurve") →
      ∀ a b, IsFiniteIof a → IsFiniteIof b → IsFiniteIof (mid a b)) : Fits g := by
  obtain ⟨a, b, c, d, e, f, g, h, i, j, k⟩ := read_fitsIn tells_finite mid pio ped root g hr h hmid
  exact ⟨a, b, c, d, e, f, g, h, i, j, k⟩

/-- **C90**, as far as it holds.  A document of the format, with no number beyond the largest `f32`, that is
read and written again is then still a document of the format.  If it has a quadratic contour, this
takes midpoints of finite numbers to be finite. -/
theorem C90_partial (mid : IOF → IOF → IOF) (pio pio' : PlistIO D) (ped : Pedantry) (root out : Element) (g : Glif PD D)
    (h : Conforms Representable root) (hr : readGlif mid pio ped root = .ok g) (hw : glifXml pio' g = .ok out)
    (hmid : (∃ c ∈ contoursOf root, ∃ e, (named "point" c.children).head? = some e ∧ OfType e "qcurve") →
      ∀ a b, IsFiniteIof a → IsFiniteIof b → IsFiniteIof (mid a b)) : Conforms Representable out :=
  C88_written pio' g (read_fits mid pio ped root g hr h hmid) out hw

/-! ## Where the claims fail -/

namespace Sample

/-- A `<glyph>` named `a`. -/
def glyph (kids : List Node) : Element := ⟨"glyph", [("name", "a".toList), ("format", "2".toList)], kids⟩

/-- A `<guideline>`. -/
def guideline (attrs : List (String × Str)) : Element := ⟨"guideline", attrs, []⟩

end Sample

theorem plain_digits {s : Str} {n : Nat} (h : Numeral 10 s n) : PlainNumber s false n 0 :=
  ⟨s, Or.inr ⟨rfl, rfl⟩, s, [], Or.inr ⟨rfl, rfl⟩, by simpa using h, rfl⟩

theorem zero_numeral : Numeral 10 "0".toList 0 := (numeral_iff (by decide) _ _).2 (by decide +kernel)

theorem onlyAttrs_of {ks : List String} {e : Element} (h : ∀ a ∈ e.attrs, a.1 ∈ ks) : OnlyAttrs ks e := by
  intro k s hs
  have hs : e.attrs.lookup k = some s := hs
  generalize e.attrs = l at h hs
  induction l with
  | nil => cases hs
  | cons a l ih =>
    obtain ⟨k', v⟩ := a
    rw [List.lookup_cons] at hs
    split at hs
    · next hk =>
      rw [show k = k' by simpa using hk]
      exact h _ List.mem_cons_self
    · exact ih (fun a ha => h a (List.mem_cons_of_mem _ ha)) hs

theorem glyph_attrs (kids : List Node) : OnlyAttrs ["name", "format", "formatMinor"] (Sample.glyph kids) :=
  onlyAttrs_of (by
    show ∀ a ∈ [("name", "a".toList), ("format", "2".toList)], a.1 ∈ _
    decide)

theorem guideline_conforms {num : Str → Prop} {attrs : List (String × Str)} (h : GuidelineForm num (Sample.guideline attrs))
    (hi : (Sample.guideline attrs).get "identifier" = none) : Conforms num (Sample.glyph [(Sample.guideline attrs).node]) := by
  have hid : (identified (Sample.glyph [(Sample.guideline attrs).node])).filterMap (·.get "identifier") = [] := by
    have : identified (Sample.glyph [(Sample.guideline attrs).node]) = [Sample.guideline attrs] := rfl
    rw [this, List.filterMap_cons, hi]
    rfl
  refine ⟨rfl, glyph_attrs _, ⟨_, rfl, by unfold IsName Control; decide⟩, rfl, ?_, ?_, ?_, ?_, ?_, ?_, ?_, ?_, ?_, ?_⟩
  · intro c hc
    rw [List.mem_singleton.1 hc]
    show "guideline" ∈ glyphNames
    decide
  · intro n hn
    simp only [List.mem_cons, List.not_mem_nil, or_false] at hn
    rcases hn with rfl | rfl | rfl | rfl | rfl <;> exact Nat.zero_le _
  · intro e he; cases he
  · intro e he; cases he
  · intro e he; cases he
  · intro e he
    have : e ∈ [Sample.guideline attrs] := he
    rw [List.mem_singleton.1 this]
    exact h
  · intro e he; cases he
  · intro e he; cases he
  · rw [hid]; intro s hs; cases hs
  · rw [hid]; exact List.nodup_nil

/-- A vertical guideline. -/
theorem vertical_conforms : Conforms SomeNumber (Sample.glyph [(Sample.guideline [("x", "0".toList)]).node]) := by
  refine guideline_conforms ⟨?_, ?_, ?_, ?_, ?_, ?_, ?_⟩ rfl
  · exact onlyAttrs_of (by decide)
  · intro s h; cases h; exact ⟨_, _, _, plain_digits zero_numeral⟩
  · intro s h; cases h
  · intro s h; cases h
  · intro s h; cases h
  · exact Or.inl (by decide)
  · decide

theorem rotated_three {α : Type} {a b c : α} {l : List α} (h : Rotated [a, b, c] l) : l = [a, b, c] ∨ l = [b, c, a] ∨ l = [c, a, b] := by
  obtain ⟨s, t, e, rfl⟩ := h
  match s, e with
  | [], e => simp only [List.nil_append] at e; subst e; simp
  | [_], e => simp only [List.cons_append, List.nil_append, List.cons.injEq] at e; obtain ⟨rfl, rfl⟩ := e; simp
  | [_, _], e => simp only [List.cons_append, List.nil_append, List.cons.injEq] at e; obtain ⟨rfl, rfl, rfl⟩ := e; simp
  | [_, _, _], e =>
    simp only [List.cons_append, List.nil_append, List.cons.injEq] at e
    obtain ⟨rfl, rfl, rfl, e⟩ := e
    rw [← e]; simp
  | _ :: _ :: _ :: _ :: _, e => simp at e

theorem contour_conforms {num : Str → Prop} {ps : List Node} (h : ContourForm num ⟨"contour", [], ps⟩)
    (hi : ∀ p ∈ named "point" ps, p.get "identifier" = none) : Conforms num (Sample.doc ps) := by
  have hid : (identified (Sample.doc ps)).filterMap (·.get "identifier") = [] := by
    have : identified (Sample.doc ps) = ⟨"contour", [], ps⟩ :: named "point" ps := by
      show _ :: (named "point" ps ++ []) = _
      rw [List.append_nil]
    rw [this, List.filterMap_cons]
    exact List.filterMap_eq_nil_iff.2 hi
  refine ⟨rfl, glyph_attrs _, ⟨_, rfl, by unfold IsName Control; decide⟩, rfl, ?_, ?_, ?_, ?_, ?_, ?_, ?_, ?_, ?_, ?_⟩
  · intro c hc
    rw [List.mem_singleton.1 hc]
    show "outline" ∈ glyphNames
    decide
  · intro n hn
    simp only [List.mem_cons, List.not_mem_nil, or_false] at hn
    rcases hn with rfl | rfl | rfl | rfl | rfl
    · exact Nat.zero_le _
    · exact Nat.zero_le _
    · exact Nat.zero_le _
    · exact Nat.le_refl 1
    · exact Nat.zero_le _
  · intro e he; cases he
  · intro e he; cases he
  · intro e he; cases he
  · intro e he; cases he
  · intro e he; cases he
  · intro e he
    have : e ∈ [(⟨"outline", [], [.elem "contour" [] ps]⟩ : Element)] := he
    rw [List.mem_singleton.1 this]
    refine ⟨onlyAttrs_of (by intro a ha; cases ha), ?_, ?_, ?_⟩
    · intro c hc
      rw [List.mem_singleton.1 hc]
      show "contour" ∈ outlineNames
      decide
    · intro c hc
      have : c ∈ [(⟨"contour", [], ps⟩ : Element)] := hc
      rw [List.mem_singleton.1 this]
      exact h
    · intro c hc; cases hc
  · rw [hid]; intro s hs; cases hs
  · rw [hid]; exact List.nodup_nil

/-- A point with attributes in the right form. -/
theorem sample_point {num : Str → Prop} {x y t : String} (hx : num x.toList) (hy : num y.toList) (ht : t.toList ∈ onCurveTypes) :
    PointForm num ⟨"point", [("x", x.toList), ("y", y.toList), ("type", t.toList)], []⟩ := by
  refine ⟨onlyAttrs_of ?_, ⟨_, rfl, hx⟩, ⟨_, rfl, hy⟩, ?_, ?_⟩
  · intro a ha
    simp only [List.mem_cons, List.not_mem_nil, or_false] at ha
    rcases ha with rfl | rfl | rfl <;> simp
  · intro s hs; cases hs; exact Or.inr ht
  · intro s hs; cases hs

theorem sample_off {num : Str → Prop} {x y : String} (hx : num x.toList) (hy : num y.toList) :
    PointForm num ⟨"point", [("x", x.toList), ("y", y.toList)], []⟩ := by
  refine ⟨onlyAttrs_of ?_, ⟨_, rfl, hx⟩, ⟨_, rfl, hy⟩, ?_, ?_⟩
  · intro a ha
    simp only [List.mem_cons, List.not_mem_nil, or_false] at ha
    rcases ha with rfl | rfl <;> simp
  · intro s hs; cases hs
  · intro s hs; cases hs

/-- A contour with a line and a quadratic segment. -/
theorem mixed_conforms : Conforms SomeNumber (Sample.doc [Sample.pe "line" "0" "0", Sample.offe "0" "0", Sample.pe "qcurve" "0" "0"]) := by
  have z : SomeNumber "0".toList := ⟨_, _, _, plain_digits zero_numeral⟩
  have np : ∀ p ∈ named "point" [Sample.pe "line" "0" "0", Sample.offe "0" "0", Sample.pe "qcurve" "0" "0"],
      p = ⟨"point", [("x", "0".toList), ("y", "0".toList), ("type", "line".toList)], []⟩ ∨
      p = ⟨"point", [("x", "0".toList), ("y", "0".toList)], []⟩ ∨
      p = ⟨"point", [("x", "0".toList), ("y", "0".toList), ("type", "qcurve".toList)], []⟩ := by
    intro p hp
    have : p ∈ [(⟨"point", [("x", "0".toList), ("y", "0".toList), ("type", "line".toList)], []⟩ : Element),
      ⟨"point", [("x", "0".toList), ("y", "0".toList)], []⟩,
      ⟨"point", [("x", "0".toList), ("y", "0".toList), ("type", "qcurve".toList)], []⟩] := hp
    simpa using this
  refine contour_conforms ⟨onlyAttrs_of (by intro a ha; cases ha), ?_, ?_, ?_, ?_, ?_⟩ ?_
  · intro c hc
    simp only [List.mem_cons, List.not_mem_nil, or_false] at hc
    rcases hc with rfl | rfl | rfl <;> exact List.mem_singleton.2 rfl
  · intro p hp
    rcases np p hp with rfl | rfl | rfl
    · exact sample_point z z (by decide)
    · exact sample_off z z
    · exact sample_point z z (by decide)
  · intro p hp
    rcases np p (List.mem_of_mem_tail hp) with rfl | rfl | rfl <;> (unfold OfType; decide)
  · intro p q r hr hq
    rcases rotated_three hr with e | e | e <;> cases e
    · rcases hq with h | h <;> exact absurd h (by unfold OfType; decide)
    · rcases hq with h | h <;> exact absurd h (by unfold OfType; decide)
    · exact fun h => h _ rfl (by decide)
  · intro p p' p'' q r hr
    rcases rotated_three hr with e | e | e <;> cases e
  · intro p hp
    rcases np p hp with rfl | rfl | rfl <;> rfl

/-- C89 as stated is false: a vertical guideline makes a document of the format unreadable, and on a
contour with a line and a quadratic segment the program panics. -/
theorem C89_false (mid : IOF → IOF → IOF) (pio : PlistIO D) :
    (∃ root, Conforms SomeNumber root ∧ ∃ e, readGlif (PD := PD) mid pio {} root = .err e) ∧
    ∃ root, Conforms SomeNumber root ∧ readGlif (PD := PD) mid pio {} root = .panic := by
  refine ⟨⟨_, vertical_conforms, ?_⟩, ⟨_, mixed_conforms, ?_⟩⟩
  · rw [C58_error_iff]
    intro ha
    obtain ⟨-, ⟨s, hs, -⟩, -⟩ := ha.guideline (Sample.guideline [("x", "0".toList)]) (List.mem_singleton.2 rfl)
    cases hs
  · rw [C07_panics_iff]
    refine ⟨?_, ⟨"contour", [], _⟩, List.mem_singleton.2 rfl, _, _, rfl, Or.inr (Or.inl rfl), _, List.mem_cons_of_mem _ List.mem_cons_self, rfl⟩
    apply doc_acceptable
    intro p hp
    have h0 : IsNumber "0".toList := someNumber_isNumber ⟨_, _, _, plain_digits zero_numeral⟩
    have : p ∈ [(⟨"point", [("x", "0".toList), ("y", "0".toList), ("type", "line".toList)], []⟩ : Element),
      ⟨"point", [("x", "0".toList), ("y", "0".toList)], []⟩,
      ⟨"point", [("x", "0".toList), ("y", "0".toList), ("type", "qcurve".toList)], []⟩] := hp
    simp only [List.mem_cons, List.not_mem_nil, or_false] at this
    rcases this with rfl | rfl | rfl <;> exact ⟨⟨_, rfl, h0⟩, ⟨_, rfl, h0⟩⟩

/-- Not every glyph is written as a document of the format: there may be two images. -/
theorem C88_needed (pio : PlistIO D) : ∃ g : Glif PD D, ∃ out, glifXml pio g = .ok out ∧ ¬ Conforms SomeNumber out := by
  refine ⟨{ name := "a".toList, images := [.fromFilename "a.png".toList, .fromFilename "b.png".toList] }, _, rfl, fun h => ?_⟩
  have := h.once "image" (by simp)
  exact absurd (show 2 ≤ 1 from this) (by decide)

theorem inf_not_number : ¬ SomeNumber "inf".toList := by
  rintro ⟨neg, m, fl, body, ⟨h, -⟩ | ⟨rfl, -⟩, hm⟩
  · cases h
  · rcases mantissa_head hm with h | h <;> exact absurd h (by decide)

/-- A glyph with a guideline at a number of 40 digits. -/
def Sample.far : Element :=
  Sample.glyph [(Sample.guideline [("x", '1' :: List.replicate 39 '0'), ("y", "0".toList), ("angle", "0".toList)]).node]

/-- It is of the format and is read, and the guideline is then infinitely far away. -/
theorem far_read (mid : IOF → IOF → IOF) (pio : PlistIO D) : Conforms SomeNumber Sample.far ∧ ∃ g : Glif PD D,
    readGlif mid pio {} Sample.far = .ok g ∧ (∃ l ∈ g.guidelines, l.x = .infinity false) ∧ ∃ out, glifXml pio g = .ok out := by
  have hb : Numeral 10 ('1' :: List.replicate 39 '0') (10 ^ 39) := (numeral_iff (by decide) _ _).2 (by decide +kernel)
  have z : SomeNumber "0".toList := ⟨_, _, _, plain_digits zero_numeral⟩
  have big : SomeNumber ('1' :: List.replicate 39 '0') := ⟨_, _, _, plain_digits hb⟩
  let attrs := [("x", '1' :: List.replicate 39 '0'), ("y", "0".toList), ("angle", "0".toList)]
  have hc : Conforms SomeNumber (Sample.glyph [(Sample.guideline attrs).node]) := by
    refine guideline_conforms ⟨onlyAttrs_of (by decide), ?_, ?_, ?_, ?_, ?_, ?_⟩ rfl
    · intro s h; cases h; exact big
    · intro s h; cases h; exact z
    · intro s h; cases h; exact ⟨z, _, _, _, plain_digits zero_numeral, nofun, by decide⟩
    · intro s h; cases h
    · exact Or.inl (by decide)
    · decide
  refine ⟨hc, ?_⟩
  obtain ⟨g, hg⟩ := (C89_partial (PD := PD) mid pio {} _ hc).2 (by
    refine ⟨?_, ?_, Or.inl rfl, ?_⟩
    · intro e he; cases he
    · intro e he
      have : e ∈ [Sample.guideline attrs] := he
      rw [List.mem_singleton.1 this]
      decide
    · intro c hc; cases hc)
  have hs := C85_says mid pio {} _ g hg
  obtain ⟨l, hl, ⟨s, h1, h1'⟩, -⟩ := forall₂_mem_left hs.guidelines (a := Sample.guideline attrs) (List.mem_singleton.2 rfl)
  cases h1
  have hx : l.x = .infinity false := by
    have := Option.some.inj (((C79_float b32_p2 _ _).2 h1').symm.trans (floatText_plain (plain_digits hb)))
    rw [this]
    have hi : b32.round (10 ^ 39) (10 ^ 0) = b32.inf := by decide +kernel
    simp only [hi]
    rfl
  obtain ⟨out, ho⟩ := C06_partial mid pio pio {} _ g hg (by intro c hc; cases hc)
  exact ⟨g, hg, ⟨l, hl, hx⟩, out, ho⟩

/-- C90 as stated is false: a number of 40 digits is written as `inf`. -/
theorem C90_false (mid : IOF → IOF → IOF) (pio : PlistIO D) :
    ∃ root, Conforms SomeNumber root ∧ ∃ g : Glif PD D, readGlif mid pio {} root = .ok g ∧
      ∃ out, glifXml pio g = .ok out ∧ ¬ Conforms SomeNumber out := by
  obtain ⟨hc, g, hg, ⟨l, hl, hx⟩, out, ho⟩ := far_read (PD := PD) mid pio
  refine ⟨_, hc, g, hg, out, ho, fun hbad => ?_⟩
  rw [glifXml_eq] at ho
  obtain ⟨oe, h2, h3⟩ := bind_eq_ok.1 ho
  cases h3
  have hn := written_named pio g oe "guideline"
  obtain ⟨-, hgx, -⟩ := hbad.guideline (guidelineXml l) (by
    show _ ∈ named "guideline" (writtenKids pio g oe)
    rw [hn]
    simp only [String.reduceEq, if_true, if_false]
    simp only [List.mem_append]
    exact Or.inl (Or.inl (Or.inr (List.mem_map.2 ⟨l, hl, rfl⟩))))
  refine inf_not_number (hgx "inf".toList ?_)
  have : (guidelineXml l).get "x" = some (showFloat l.x) := by simp [guidelineXml]
  rw [this, hx]
  decide +kernel

/-! ## Examples -/

theorem conforms_mono {num num' : Str → Prop} (h : ∀ s, num s → num' s) {root : Element} (hc : Conforms num root) : Conforms num' root := by
  have may : ∀ {e k}, May e k num → May e k num' := fun hm s hs => h s (hm s hs)
  have need : ∀ {e k}, Needs e k num → Needs e k num' := fun ⟨s, h1, h2⟩ => ⟨s, h1, h s h2⟩
  refine ⟨hc.tag, hc.attrs, hc.name, hc.format, hc.children, hc.once, ?_, hc.unicode, ?_, ?_, ?_, ?_, hc.identifiers, hc.unique⟩
  · intro e he
    obtain ⟨a, b, c⟩ := hc.advance e he
    exact ⟨a, may b, may c⟩
  · intro e he
    obtain ⟨a, b, c, d⟩ := hc.image e he
    exact ⟨a, b, c, fun k hk => may (d k hk)⟩
  · intro e he
    obtain ⟨a, b, c, d, r⟩ := hc.guideline e he
    exact ⟨a, may b, may c, fun s hs => ⟨h s (d s hs).1, (d s hs).2⟩, r⟩
  · intro e he
    obtain ⟨a, b, c, d⟩ := hc.anchor e he
    exact ⟨a, need b, need c, d⟩
  · intro e he
    obtain ⟨a, b, c, d⟩ := hc.outline e he
    refine ⟨a, b, ?_, ?_⟩
    · intro x hx
      obtain ⟨a, b, c, r⟩ := c x hx
      refine ⟨a, b, ?_, r⟩
      intro p hp
      obtain ⟨a, b, c, r⟩ := c p hp
      exact ⟨a, need b, need c, r⟩
    · intro x hx
      obtain ⟨a, b, c⟩ := d x hx
      exact ⟨a, b, fun k hk => may (c k hk)⟩

/-- A document with one curve that leads back to its beginning. -/
def Sample.loop : Element := Sample.doc [Sample.pe "curve" "0" "0", Sample.offe "0" "0", Sample.offe "0" "0"]

/-- It is of the format, read and written. -/
theorem loop_read (mid : IOF → IOF → IOF) (pio : PlistIO D) :
    ∃ out, ∃ g : Glif PD D, Conforms Representable Sample.loop ∧ readGlif mid pio {} Sample.loop = .ok g ∧ glifXml pio g = .ok out ∧
      contoursOf Sample.loop ≠ [] ∧ ¬ ∃ c ∈ contoursOf Sample.loop, ∃ e, (named "point" c.children).head? = some e ∧ OfType e "qcurve" := by
  let ps := [Sample.pe "curve" "0" "0", Sample.offe "0" "0", Sample.offe "0" "0"]
  have z : Representable "0".toList := (representable_iff _).2 ⟨_, _, _, plain_digits zero_numeral, round_small (by decide)⟩
  have np : ∀ p ∈ named "point" ps,
      p = ⟨"point", [("x", "0".toList), ("y", "0".toList), ("type", "curve".toList)], []⟩ ∨
      p = ⟨"point", [("x", "0".toList), ("y", "0".toList)], []⟩ := by
    intro p hp
    have : p ∈ [(⟨"point", [("x", "0".toList), ("y", "0".toList), ("type", "curve".toList)], []⟩ : Element),
      ⟨"point", [("x", "0".toList), ("y", "0".toList)], []⟩, ⟨"point", [("x", "0".toList), ("y", "0".toList)], []⟩] := hp
    simpa using this
  have hc : Conforms Representable (Sample.doc ps) := by
    refine contour_conforms ⟨onlyAttrs_of (by intro a ha; cases ha), ?_, ?_, ?_, ?_, ?_⟩ ?_
    · intro c hc
      simp only [ps, List.mem_cons, List.not_mem_nil, or_false] at hc
      rcases hc with rfl | rfl | rfl <;> exact List.mem_singleton.2 rfl
    · intro p hp
      rcases np p hp with rfl | rfl
      · exact sample_point z z (by decide)
      · exact sample_off z z
    · intro p hp
      rcases np p (List.mem_of_mem_tail hp) with rfl | rfl <;> (unfold OfType; decide)
    · intro p q r hr hq
      rcases rotated_three hr with e | e | e <;> cases e <;> rcases hq with h | h <;> exact absurd h (by unfold OfType; decide)
    · intro p p' p'' q r hr
      rcases rotated_three hr with e | e | e <;> cases e
    · intro p hp
      rcases np p hp with rfl | rfl <;> rfl
  have nq : ¬ ∃ c ∈ contoursOf (Sample.doc ps), ∃ e, (named "point" c.children).head? = some e ∧ OfType e "qcurve" := by
    rintro ⟨c, hc, e, he, ht⟩
    have : c ∈ [(⟨"contour", [], ps⟩ : Element)] := hc
    rw [List.mem_singleton.1 this] at he
    cases he
    revert ht
    unfold OfType
    decide
  obtain ⟨g, hg⟩ := (C89_partial (PD := PD) mid pio {} _ (conforms_mono (fun _ => representable_some) hc)).2 (by
    refine ⟨?_, ?_, Or.inl rfl, ?_⟩
    · intro e he; cases he
    · intro e he; cases he
    · rintro c hc ⟨p, qs, hp, -, q, hq, ht⟩
      have : c ∈ [(⟨"contour", [], ps⟩ : Element)] := hc
      rw [List.mem_singleton.1 this] at hp
      cases hp
      have hq' : q ∈ [(⟨"point", [("x", "0".toList), ("y", "0".toList)], []⟩ : Element),
        ⟨"point", [("x", "0".toList), ("y", "0".toList)], []⟩] := hq
      simp only [List.mem_cons, List.not_mem_nil, or_false, or_self] at hq'
      revert ht
      rw [hq']
      unfold OfType
      decide)
  obtain ⟨out, ho⟩ := C06_partial mid pio pio {} _ g hg (by
    rintro c hc ⟨p, qs, q, hp, ht, -⟩
    exact nq ⟨c, hc, p, by rw [hp]; rfl, ht⟩)
  exact ⟨out, g, hc, hg, ho, List.cons_ne_nil _ _, nq⟩

/-- A glyph with a curve, a guideline and a component that fits the format. -/
example : ∃ g : Glif PD D, Fits g ∧ g.outline ≠ none ∧ g.guidelines ≠ [] ∧ g.components.vec ≠ [] := by
  let z : F32 := .num false 0 (Nat.zero_le _)
  have hz : IsFinite z := ⟨_, _, _, rfl, by decide⟩
  have hi : ∀ i h, IsFiniteIof (.int i h) := fun i h => Or.inl ⟨i, h, rfl⟩
  let p : Point PD := { x := z, y := z, ptype := .move, a := .at z z }
  let q : Point PD := { x := z, y := z, ptype := .curve }
  have fp : PlacedPoint p := ⟨hz, hz, (by intro x y e; cases e; exact ⟨hz, hz⟩), (by intro x y e; cases e)⟩
  have fq : PlacedPoint q := ⟨hz, hz, (by intro x y e; cases e), (by intro x y e; cases e)⟩
  let m : Mat6 := ⟨.int 1, .int 0, .int 0, .int 1, .int 0, .int 0⟩
  refine ⟨{ name := "a".toList, outline := some [[p, q]], guidelines := [⟨z, z, .int 0, none, none, some "id1".toList⟩]
            components := { vec := [⟨"b".toList, none, m, some "id2".toList⟩] } }, ?_, nofun, nofun, nofun⟩
  refine ⟨(by show IsName "a".toList; unfold IsName Control; decide), (by intro w h; cases h), (by intro a h; cases h), Nat.zero_le _, (by intro a h; cases h), ?_, ?_, ?_, ?_, ?_, ?_⟩
  · intro l hl
    rw [List.mem_singleton.1 hl]
    exact ⟨hz, hz, hi _ _, Or.inl ⟨_, _, rfl, by omega, by omega⟩, (by intro c hc; cases hc)⟩
  · intro c hc
    rw [List.mem_singleton.1 hc]
    exact ⟨by unfold IsName Control; decide, hi _ _, hi _ _, hi _ _, hi _ _, hi _ _, hi _ _⟩
  · show ∀ s ∈ ["id1".toList, "id2".toList], IsIdentifier s
    unfold IsIdentifier
    decide
  · show ["id1".toList, "id2".toList].Nodup
    decide
  · intro o ho c hc x hx
    cases ho
    rw [List.mem_singleton.1 hc] at hx
    simp only [List.mem_cons, List.not_mem_nil, or_false] at hx
    rcases hx with rfl | rfl
    · exact fp
    · exact fq
  · intro o ho c hc x hx
    cases ho
    rw [List.mem_singleton.1 hc] at hx
    rw [List.mem_singleton.1 hx]
    exact nofun

end GP
