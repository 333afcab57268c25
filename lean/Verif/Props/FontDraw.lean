import Verif.Spec.FontDraw
import Verif.Lemmas.Unsigned
import Verif.Props.FilesFont
import Verif.Props.FlattenDraw
import Verif.Props.SkiaSaved
import Verif.Props.Coefficients
import Verif.Props.XmlText
/-!
# C133: a font that was saved, read again and flattened draws its components as they were
-/
open Fl Fl.Text
namespace GP
open Spec
variable {PD D : Type}

/-! ## Matrices up to the signs of zeros -/

/-- The same matrix but for the signs of zeros. -/
def SameUnsigned (A B : Affine) : Prop :=
  A.a.normZero = B.a.normZero ∧ A.b.normZero = B.b.normZero ∧ A.c.normZero = B.c.normZero ∧
  A.d.normZero = B.d.normZero ∧ A.e.normZero = B.e.normZero ∧ A.f.normZero = B.f.normZero

theorem inf32_pos : 0 < b32.inf := by decide
theorem inf64_pos : 0 < b64.inf := by decide

/-- One coordinate of a moved point. -/
theorem moved_unsigned {a a' c c' e e' : F64} {x x' y y' : F32} (ha : a.normZero = a'.normZero) (hc : c.normZero = c'.normZero)
    (he : e.normZero = e'.normZero) (hx : x.normZero = x'.normZero) (hy : y.normZero = y'.normZero) :
    (a * x.to64 + c * y.to64 + e).to32.normZero = (a' * x'.to64 + c' * y'.to64 + e').to32.normZero := by
  have mul : ∀ {u u' : F64} {v v' : F32}, u.normZero = u'.normZero → v.normZero = v'.normZero →
      (u * v.to64).normZero = (u' * v'.to64).normZero := by
    intro u u' v v' hu hv
    exact (normZero_mul_left b64_p inf64_pos hu _).trans (normZero_mul_right b64_p inf64_pos _ (normZero_cast b64_p inf32_pos hv))
  have add : ∀ {u u' v v' : F64}, u.normZero = u'.normZero → v.normZero = v'.normZero → (u + v).normZero = (u' + v').normZero := by
    intro u u' v v' hu hv
    exact (normZero_add_left inf64_pos hu _).trans (normZero_add_right inf64_pos _ hv)
  exact normZero_cast b32_p inf64_pos (add (add (mul ha hx) (mul hc hy)) he)

theorem images_unsigned {As Bs : List Affine} (h : List.Forall₂ SameUnsigned As Bs) : ∀ {p q : F32 × F32},
    Stroke.unsigned.f p = Stroke.unsigned.f q → Stroke.unsigned.f (images As p) = Stroke.unsigned.f (images Bs q) := by
  induction h with
  | nil => intro p q hpq; exact hpq
  | @cons A B As Bs hAB _ ih =>
    intro p q hpq
    refine ih ?_
    obtain ⟨ha, hb, hc, hd, he, hf⟩ := hAB
    obtain ⟨hx, hy⟩ := Prod.mk.inj hpq
    exact Prod.ext (moved_unsigned ha hc he hx hy) (moved_unsigned hb hd hf hx hy)

theorem stroke_unsigned {As Bs : List Affine} (h : List.Forall₂ SameUnsigned As Bs) (s : Stroke) :
    (s.unsigned.moved (images Bs)).unsigned = (s.moved (images As)).unsigned := by
  have key : ∀ p : SkPoint, Stroke.unsigned.f (images Bs (Stroke.unsigned.f p)) = Stroke.unsigned.f (images As p) := by
    intro p
    refine (images_unsigned h (p := p) (q := Stroke.unsigned.f p) ?_).symm
    simp only [Stroke.unsigned.f, Flt.normZero_idem]
  cases s <;> simp only [Stroke.unsigned, Stroke.moved, key]

/-- A component that came back from a file has the matrix it had. -/
theorem coefficient_unsigned {x y : IOF} (h : SameNumber x y) (hx : NotBetween x) : (number64 x).normZero = (number64 y).normZero := by
  obtain ⟨h1, h2⟩ := h
  cases x with
  | int i hi => rw [h2 i hi rfl]
  | float f =>
    cases y with
    | float g =>
      have : g = f.normZero := h1
      subst this
      exact normZero_cast b64_p inf32_pos (Flt.normZero_idem f).symm
    | int i hi =>
      obtain ⟨hfin, hv⟩ := value_of_rounds hi h1 hx
      exact normZero_eq_of_val b64_p (v := (i : ℚ)) ⟨(to64_val hfin).1, hv⟩ (i32_val64 hi)

theorem matrix_unsigned {m n : Mat6} {A B : Affine} (h : SameMatrix m n) (hm : AllSix NotBetween m) (hA : Represents m A)
    (hB : Represents n B) : SameUnsigned A B := by
  obtain ⟨a1, a2, a3, a4, a5, a6⟩ := hA
  obtain ⟨b1, b2, b3, b4, b5, b6⟩ := hB
  obtain ⟨h1, h2, h3, h4, h5, h6⟩ := h
  obtain ⟨m1, m2, m3, m4, m5, m6⟩ := hm
  refine ⟨?_, ?_, ?_, ?_, ?_, ?_⟩
  · rw [a1, b1]; exact coefficient_unsigned h1 m1
  · rw [a2, b2]; exact coefficient_unsigned h2 m2
  · rw [a3, b3]; exact coefficient_unsigned h3 m3
  · rw [a4, b4]; exact coefficient_unsigned h4 m4
  · rw [a5, b5]; exact coefficient_unsigned h5 m5
  · rw [a6, b6]; exact coefficient_unsigned h6 m6

/-! ## Contours -/

theorem wantedStroke_moved (As : List Affine) (x : Point PD × Point PD) :
    wantedStroke (x.1.applyMatrices As, x.2.applyMatrices As) = (wantedStroke x).moved (images As) := by
  simp only [wantedStroke, ptype_applyMatrices, outPos_applyMatrices, inPos_applyMatrices, place_applyMatrices]
  split <;> rfl

theorem openContour_moved (As : List Affine) (c : Contour PD) : openContour (c.map (Point.applyMatrices As)) = openContour c := by
  cases c with
  | nil => rfl
  | cons p c => simp [openContour, ptype_applyMatrices]

theorem wantedStrokes_moved (As : List Affine) (c : Contour PD) :
    wantedStrokes (c.map (Point.applyMatrices As)) = (wantedStrokes c).map (Stroke.moved (images As)) := by
  unfold wantedStrokes
  rw [openContour_moved]
  have hz : ∀ l m : Contour PD, ((l.map (Point.applyMatrices As)).zip (m.map (Point.applyMatrices As))).map wantedStroke =
      ((l.zip m).map wantedStroke).map (Stroke.moved (images As)) := by
    intro l m
    rw [List.zip_map, List.map_map, List.map_map]
    exact List.map_congr_left fun x _ => wantedStroke_moved As x
  split
  · unfold openPairs
    rw [← List.map_tail, hz]
  · unfold closedPairs
    rw [← List.map_tail, ← List.map_take, ← List.map_append, hz]

theorem movedThrough_eq {As : List Affine} {c c' : Contour PD} (h : List.Forall₂ (MovedThrough As) c c') :
    c' = c.map (Point.applyMatrices As) := by
  induction h with
  | nil => rfl
  | cons h1 _ ih => rw [List.map_cons, ← ih, movedThrough_unique h1 (movedThrough As _)]

/-- A contour that was saved, read again and moved. -/
theorem saved_moved {As Bs : List Affine} (hAB : List.Forall₂ SameUnsigned As Bs) {c c' : Contour PD} (hc : MoveFirst c)
    (h : List.Forall₂ (MovedThrough Bs) ((stored c).map unsigned) c') : DrawsMoved As c c' := by
  rw [movedThrough_eq h]
  obtain ⟨⟨h1, h2⟩, -⟩ := stored_draws hc
  refine ⟨by rw [openContour_moved, openContour_unsigned, h1], ?_⟩
  rw [wantedStrokes_moved, wantedStrokes_unsigned, List.map_map, List.map_map]
  have : (wantedStrokes (stored c)).map (Stroke.unsigned ∘ Stroke.moved (images Bs) ∘ Stroke.unsigned) =
      (wantedStrokes (stored c)).map fun s => (s.moved (images As)).unsigned :=
    List.map_congr_left fun s _ => stroke_unsigned hAB s
  rw [Function.comp_assoc, this]
  exact rotated_of_map _ h2

/-! ## Trees -/

/-- What is in the files of a component and its components is what they are made of, as saved. -/
inductive SavedTree : Tree (Affine × Glif PD D) → Tree (Component PD D) → Prop
  | mk {u : Tree (Affine × Glif PD D)} {t : Tree (Component PD D)} (matrix : SameUnsigned u.data.1 t.data.matrix)
      (outline : t.data.glif.outline.getD [] = resavedOutline (u.data.2.outline.getD []))
      (first : ∀ c ∈ u.data.2.outline.getD [], MoveFirst c)
      (children : List.Forall₂ SavedTree u.children t.children) : SavedTree u t

section
variable {mid : IOF → IOF → IOF} {pio : PlistIO D} {files : Files} {dir : Path} {gs : List (Glif PD D)}

/-- The files hold the font as saved. -/
def SavedIn (PD : Type) {D : Type} (mid : IOF → IOF → IOF) (pio : PlistIO D) (files : Files) (dir : Path) (gs : List (Glif PD D)) : Prop :=
  ∀ h ∈ gs, ∃ g0 : Glif PD D, Holds PD mid pio files (fileIn dir h.name) g0 ∧
    g0.outline.getD [] = resavedOutline (h.outline.getD []) ∧
    List.Forall₂ (fun c d : GlifComponent => d.base = c.base ∧ d.filename = some (fileIn dir d.base) ∧ SameMatrix c.m d.m) h.components.vec
      (g0.components.vec.map (located (fileIn dir h.name)))

mutual
theorem unfolds_made (hF : SavedIn PD mid pio files dir gs)
    (hcl : ∀ g ∈ gs, ∀ c ∈ g.components.vec, (∃ h ∈ gs, h.name = c.base) ∧ AllSix NotBetween c.m)
    (hm : ∀ g ∈ gs, ∀ c ∈ g.outline.getD [], MoveFirst c) :
    ∀ (t : Tree (Component PD D)) {c d : GlifComponent}, Unfolds PD mid pio files d t →
      (d.base = c.base ∧ d.filename = some (fileIn dir d.base) ∧ SameMatrix c.m d.m) →
      (∃ h ∈ gs, h.name = c.base) → AllSix NotBetween c.m → ∃ u, MadeOf gs c u ∧ SavedTree u t
  | .node data ts, c, d, hu, ⟨hb, hf, hcm⟩, ⟨h, hh, hn⟩, h6 => by
    cases hu with
    | mk f g file holds name filename outline anchors matrix children =>
      obtain ⟨g0, h0, ho, hv⟩ := hF h hh
      rw [hf] at file
      cases file
      rw [hb, ← hn] at holds children
      cases holds_unique h0 holds
      obtain ⟨us, hu1, hu2⟩ := unfolds_all hF hcl hm ts children hv (hcl h hh)
      refine ⟨.node (⟨number64 c.m.xScale, number64 c.m.xyScale, number64 c.m.yxScale, number64 c.m.yScale, number64 c.m.xOffset,
        number64 c.m.yOffset⟩, h) us, ⟨hh, hn, ⟨rfl, rfl, rfl, rfl, rfl, rfl⟩, hu1⟩, ?_, ?_, hm h hh, hu2⟩
      · exact matrix_unsigned hcm h6 ⟨rfl, rfl, rfl, rfl, rfl, rfl⟩ matrix
      · rw [outline, ho]; rfl
theorem unfolds_all (hF : SavedIn PD mid pio files dir gs)
    (hcl : ∀ g ∈ gs, ∀ c ∈ g.components.vec, (∃ h ∈ gs, h.name = c.base) ∧ AllSix NotBetween c.m)
    (hm : ∀ g ∈ gs, ∀ c ∈ g.outline.getD [], MoveFirst c) :
    ∀ (ts : List (Tree (Component PD D))) {cs ds : List GlifComponent}, List.Forall₂ (Unfolds PD mid pio files) ds ts →
      List.Forall₂ (fun c d : GlifComponent => d.base = c.base ∧ d.filename = some (fileIn dir d.base) ∧ SameMatrix c.m d.m) cs ds →
      (∀ c ∈ cs, (∃ h ∈ gs, h.name = c.base) ∧ AllSix NotBetween c.m) →
      ∃ us, List.Forall₂ (MadeOf gs) cs us ∧ List.Forall₂ SavedTree us ts
  | [], cs, ds, h1, h2, _ => by
    cases h1
    cases h2
    exact ⟨[], .nil, .nil⟩
  | t :: ts, cs, ds, h1, h2, h3 => by
    cases h1 with
    | cons ht hts =>
      cases h2 with
      | cons hc hcs =>
        obtain ⟨k1, k2⟩ := h3 _ (List.mem_cons_self ..)
        obtain ⟨u, hu1, hu2⟩ := unfolds_made hF hcl hm t ht hc k1 k2
        obtain ⟨us, hs1, hs2⟩ := unfolds_all hF hcl hm ts hts hcs fun c h => h3 c (List.mem_cons_of_mem _ h)
        exact ⟨u :: us, .cons hu1 hs1, .cons hu2 hs2⟩
end

end

/-- The nodes that flattening draws are those of the font, as saved. -/
theorem saved_nodes {us : List (Tree (Affine × Glif PD D))} {ts : List (Tree (Component PD D))} (h : List.Forall₂ SavedTree us ts) :
    List.Forall₂ (fun (x : List Affine × (Affine × Glif PD D)) (y : List Affine × Component PD D) =>
      List.Forall₂ SameUnsigned (x.2.1 :: x.1) (y.2.matrix :: y.1) ∧
      y.2.glif.outline.getD [] = resavedOutline (x.2.2.outline.getD []) ∧ ∀ c ∈ x.2.2.outline.getD [], MoveFirst c)
      (us.flatMap (lastFirst (·.1))) (ts.flatMap (lastFirst (·.matrix))) := by
  induction h with
  | nil => exact .nil
  | @cons u t us ts hut _ ih =>
    rw [List.flatMap_cons, List.flatMap_cons]
    refine List.rel_append ?_ ih
    cases hut with
    | mk matrix outline first children =>
      unfold lastFirst
      refine .cons ⟨.cons matrix .nil, outline, first⟩ ?_
      rw [List.forall₂_map_left_iff, List.forall₂_map_right_iff, List.forall₂_reverse_iff]
      refine children.imp ?_
      rintro a b ⟨m, o, i, -⟩
      exact ⟨.cons m (.cons matrix .nil), o, i⟩

/-- A node that is drawn from its file. -/
theorem node_drawn {x : List Affine × (Affine × Glif PD D)} {y : List Affine × Component PD D} {o : Outline PD}
    (h : List.Forall₂ SameUnsigned (x.2.1 :: x.1) (y.2.matrix :: y.1)) (ho : y.2.glif.outline.getD [] = resavedOutline (x.2.2.outline.getD []))
    (hm : ∀ c ∈ x.2.2.outline.getD [], MoveFirst c) (hd : DrawnNode y o) : NodeDrawn x o := by
  unfold DrawnNode at hd
  rw [ho, resavedOutline, List.forall₂_map_left_iff] at hd
  unfold NodeDrawn
  have hm' : ∀ c ∈ (x.2.2.outline.getD []).filter fun c => !loneMove c, MoveFirst c := fun c hc => hm c (List.mem_filter.1 hc).1
  generalize (x.2.2.outline.getD []).filter (fun c => !loneMove c) = l at hd hm'
  induction hd with
  | nil => exact .nil
  | cons hc _ ih =>
    exact .cons (saved_moved h (hm' _ (List.mem_cons_self ..)) hc) (ih fun c hc => hm' c (List.mem_cons_of_mem _ hc))

mutual
theorem madeOf_unique {gs : List (Glif PD D)} (hnd : (gs.map (·.name)).Nodup) :
    ∀ (u : Tree (Affine × Glif PD D)) {c : GlifComponent} {v : Tree (Affine × Glif PD D)}, MadeOf gs c u → MadeOf gs c v → v = u
  | .node (A, g) us, c, .node (B, h) vs, hu, hv => by
    cases hu with
    | mk ug un um uc =>
      cases hv with
      | mk vg vn vm vc =>
        have hgh : h = g := nodup_name hnd vg ug (vn.trans un.symm)
        subst hgh
        have hAB : B = A := by
          obtain ⟨a1, a2, a3, a4, a5, a6⟩ := um
          obtain ⟨b1, b2, b3, b4, b5, b6⟩ := vm
          obtain ⟨⟩ := A
          obtain ⟨⟩ := B
          simp only [Tree.data] at a1 a2 a3 a4 a5 a6 b1 b2 b3 b4 b5 b6
          subst a1 a2 a3 a4 a5 a6 b1 b2 b3 b4 b5 b6
          rfl
        subst hAB
        have : vs = us := madeOf_all_unique hnd us uc vc
        rw [this]
theorem madeOf_all_unique {gs : List (Glif PD D)} (hnd : (gs.map (·.name)).Nodup) :
    ∀ (us : List (Tree (Affine × Glif PD D))) {cs : List GlifComponent} {vs : List (Tree (Affine × Glif PD D))},
      List.Forall₂ (MadeOf gs) cs us → List.Forall₂ (MadeOf gs) cs vs → vs = us
  | [], cs, vs, hu, hv => by
    cases hu
    cases hv
    rfl
  | u :: us, cs, vs, hu, hv => by
    cases hu with
    | cons h1 h2 =>
      cases hv with
      | cons k1 k2 => rw [madeOf_unique hnd u h1 k1, madeOf_all_unique hnd us h2 k2]
end

theorem inFont_saved {mid : IOF → IOF → IOF} {pio : PlistIO D} {xml : XmlIO} {d : Disk} {dir : Path} {h h' : Glif PD D}
    (hr : readFile mid pio xml d {} (fileIn dir h.name) = .ok h') (hi : InFont dir h h') :
    ∃ g0 : Glif PD D, Holds PD mid pio (d.files xml) (fileIn dir h.name) g0 ∧
      g0.outline.getD [] = resavedOutline (h.outline.getD []) ∧ g0.components.vec.map (located (fileIn dir h.name)) = h'.components.vec ∧
      List.Forall₂ (fun c d : GlifComponent => d.base = c.base ∧ d.filename = some (fileIn dir d.base) ∧ SameMatrix c.m d.m) h.components.vec
        h'.components.vec := by
  have ho : ∃ g0 : Glif PD D, Holds PD mid pio (d.files xml) (fileIn dir h.name) g0 ∧ h'.components.vec = g0.components.vec.map (located (fileIn dir h.name)) ∧
      h'.outline = g0.outline := by
    unfold readFile readFromFilename at hr
    match hx : d.files xml (fileIn dir h.name) with
    | none => rw [hx] at hr; cases hr
    | some none => rw [hx] at hr; cases hr
    | some (some e) =>
      rw [hx] at hr
      simp only [Out.ofOption_some, Out.bind_ok] at hr
      match hg : (readGlif mid pio {} e : R (Glif PD D)) with
      | .err er => rw [hg] at hr; cases hr
      | .panic => rw [hg] at hr; cases hr
      | .ok g0 =>
        rw [hg] at hr
        cases hr
        exact ⟨g0, ⟨e, hx, hg⟩, rfl, rfl⟩
  obtain ⟨g0, h0, hv, ho⟩ := ho
  obtain ⟨g1, hres, rfl⟩ := hi
  refine ⟨g0, h0, ?_, hv.symm, ?_⟩
  · rw [← ho]; exact hres.outline
  · simp only []
    rw [List.forall₂_map_right_iff]
    exact hres.components.imp fun c d hcd => ⟨hcd.1, rfl, hcd.2.2.2⟩

/-- **C133.** A font is saved glyph by glyph; its contours are of lines and cubic curves and begin with their only move point if any,
its components refer to glyphs of the font, and the numbers in their matrices are integers or of font sizes.  Then each of its glyphs
that does not lead to a cycle can be read and flattened, and the contours flattening gives are, in order, those of the components as they
were in the font and of these glyphs' own components from the last to the first: each draws the pieces it drew, moved by the matrix of the
component as it was in the font and then by the one above it, up to the piece it begins with and the signs of zeros.  Lone move
points, which draw nothing, are gone.  What is made of the components is determined by the font alone.  (What flattening leaves
out is the subject of C22 and C23, and how near computed places are to exact ones that of C106.) -/
theorem C133_drawn (mid : IOF → IOF → IOF) (pio : PlistIO D) (xml : XmlIO) (dir : Path) (gs : List (Glif PD D))
    (hs : ∀ g ∈ gs, Saveable pio g) (hx : ∀ g ∈ gs, ∀ e, glifXml pio g = .ok e → Prints xml e)
    (hn : ∀ g ∈ gs, '/' ∉ g.name) (hnd : (gs.map (·.name)).Nodup)
    (hcl : ∀ g ∈ gs, ∀ c ∈ g.components.vec, (∃ h ∈ gs, h.name = c.base) ∧ AllSix NotBetween c.m)
    (hm : ∀ g ∈ gs, ∀ c ∈ g.outline.getD [], MoveFirst c)
    (d : Disk) (hw : ∀ p, d.writable p = true) (hd : ∀ p q, d.place p = d.place q → p = q)
    (fs : List Path) (hfs : ∀ p, d.read p ≠ none → p ∈ fs) :
    ∃ d', writeFont pio xml dir gs d = .ok d' ∧
      ∀ g ∈ gs, ¬ LeadsToCycle gs g.name → ∃ g', readFile mid pio xml d' {} (fileIn dir g.name) = .ok g' ∧
        ∃ us, List.Forall₂ (MadeOf gs) g.components.vec us ∧ (∀ us', List.Forall₂ (MadeOf gs) g.components.vec us' → us' = us) ∧
          ∃ n, ∀ k, n ≤ k → ∃ f rects, g'.flattened (fun c => c.toComponent mid pio (d'.files xml)) k = some (.ok (f, rects)) ∧
            ∃ os, f.outline = some os.flatten ∧ List.Forall₂ NodeDrawn (us.flatMap (lastFirst (·.1))) os := by
  obtain ⟨d', hwr, hall⟩ := C84_resolves mid pio xml dir gs hs hx hn hnd (fun g hg c hc => (hcl g hg c hc).1) d hw hd fs hfs
  refine ⟨d', hwr, fun g hg hcyc => ?_⟩
  have hF : SavedIn PD mid pio (d'.files xml) dir gs := by
    intro h hh
    obtain ⟨h', hr, hi, -⟩ := hall h hh
    obtain ⟨g0, h0, ho, hv, hc⟩ := inFont_saved hr hi
    exact ⟨g0, h0, ho, hv ▸ hc⟩
  obtain ⟨g', hr, hi, n, r, hfor, -, hok⟩ := hall g hg
  obtain ⟨ts, rfl⟩ := hok.2 hcyc
  obtain ⟨-, -, -, -, hc⟩ := inFont_saved hr hi
  have hun := C21_unfolding (hfor n (Nat.le_refl _))
  obtain ⟨us, hu1, hu2⟩ := unfolds_all hF hcl hm ts hun hc (hcl g hg)
  refine ⟨g', hr, us, hu1, fun us' h' => madeOf_all_unique hnd us hu1 h', n, fun k hk => ?_⟩
  have hfk := hfor k hk
  have hfl : g'.flattened (fun c => c.toComponent mid pio (d'.files xml)) k =
      some (.ok ({ g' with outline := some (flattenForest ts).1, components := {} }, (flattenForest ts).2)) := by
    unfold Glif.flattened
    rw [hfk]
    rfl
  refine ⟨_, _, hfl, ?_⟩
  obtain ⟨o, ⟨os, h1, h2⟩, h3⟩ := C22_order hfl hfk
  refine ⟨os, by rw [h3, h2], ?_⟩
  have key : ∀ {xs : List (List Affine × (Affine × Glif PD D))} {ys : List (List Affine × Component PD D)} {os : List (Outline PD)},
      List.Forall₂ (fun (x : List Affine × (Affine × Glif PD D)) (y : List Affine × Component PD D) =>
        List.Forall₂ SameUnsigned (x.2.1 :: x.1) (y.2.matrix :: y.1) ∧
        y.2.glif.outline.getD [] = resavedOutline (x.2.2.outline.getD []) ∧ ∀ c ∈ x.2.2.outline.getD [], MoveFirst c) xs ys →
      List.Forall₂ DrawnNode ys os → List.Forall₂ NodeDrawn xs os := by
    intro xs ys os hxy
    induction hxy generalizing os with
    | nil => intro h; cases h; exact .nil
    | cons hab _ ih =>
      intro h
      cases h with
      | cons hd ht => exact .cons (node_drawn hab.1 hab.2.1 hab.2.2 hd) (ih ht)
  exact key (saved_nodes hu2) h1

/-- The font of two glyphs of `Files` has such components and contours (its other conditions are checked there and in
`FilesFont`)... -/
example : (∀ g ∈ [Sample.gA D, Sample.ga D], ∀ c ∈ g.components.vec, (∃ h ∈ [Sample.gA D, Sample.ga D], h.name = c.base) ∧ AllSix NotBetween c.m) ∧
    ∀ g ∈ [Sample.gA D, Sample.ga D], ∀ c ∈ g.outline.getD [], MoveFirst c := by
  constructor
  · intro g hg c hc
    rw [List.mem_cons, List.mem_singleton] at hg
    rcases hg with rfl | rfl
    · rw [show (Sample.gA D).components.vec = [{ GlifComponent.new with base := "a".toList }] from rfl, List.mem_singleton] at hc
      subst hc
      have one : NotBetween (.float one32) := by
        rintro f ⟨⟩ -
        left
        rw [show one32.toRat = ((1 : ℤ) : ℚ) from (val_int32 (i := 1) (by decide)).2]
        norm_num
      exact ⟨⟨Sample.ga D, by simp, rfl⟩, one, fun f hf => (nomatch hf), fun f hf => (nomatch hf), one, fun f hf => (nomatch hf), fun f hf => (nomatch hf)⟩
    · cases hc
  · intro g hg c hc
    rw [List.mem_cons, List.mem_singleton] at hg
    rcases hg with rfl | rfl
    · cases hc
    · rw [show (Sample.ga D).outline.getD [] = [[Sample.pt .line 0 0, Sample.pt .line 5 0, Sample.pt .line 5 5]] from rfl, List.mem_singleton] at hc
      subst hc
      intro p hp
      simp only [List.tail_cons, List.mem_cons, List.not_mem_nil, or_false] at hp
      rcases hp with rfl | rfl <;> simp [Sample.pt]

/-- ... and its component is made of the other glyph. -/
example : ∃ u, List.Forall₂ (MadeOf [Sample.gA D, Sample.ga D]) (Sample.gA D).components.vec [u] ∧ u.data.2 = Sample.ga D ∧ u.children = [] :=
  ⟨.node (GlifComponent.new.m.affine, Sample.ga D) [],
    .cons ⟨List.mem_cons_of_mem _ (List.mem_singleton.2 rfl), rfl, ⟨rfl, rfl, rfl, rfl, rfl, rfl⟩, .nil⟩ .nil, rfl, rfl⟩

/-- **C133.** The same with the printer and the parser of the XML library as they are (`XmlText`): nothing is left to ask of them when the
texts of the glyphs can be said in XML and no note is of white space only. -/
theorem C133_text (mid : IOF → IOF → IOF) (pio : PlistIO D) (lay : XmlText.Layout) (hl : Lays lay) (dir : Path) (gs : List (Glif PD D))
    (hs : ∀ g ∈ gs, Saveable pio g) (hx : ∀ g ∈ gs, SayableTexts pio g ∧ ∀ n, g.note = some n → ¬ Blank n)
    (hn : ∀ g ∈ gs, '/' ∉ g.name) (hnd : (gs.map (·.name)).Nodup)
    (hcl : ∀ g ∈ gs, ∀ c ∈ g.components.vec, (∃ h ∈ gs, h.name = c.base) ∧ AllSix NotBetween c.m)
    (hm : ∀ g ∈ gs, ∀ c ∈ g.outline.getD [], MoveFirst c)
    (d : Disk) (hw : ∀ p, d.writable p = true) (hd : ∀ p q, d.place p = d.place q → p = q)
    (fs : List Path) (hfs : ∀ p, d.read p ≠ none → p ∈ fs) :
    ∃ d', writeFont pio (XmlText.io lay) dir gs d = .ok d' ∧
      ∀ g ∈ gs, ¬ LeadsToCycle gs g.name → ∃ g', readFile mid pio (XmlText.io lay) d' {} (fileIn dir g.name) = .ok g' ∧
        ∃ us, List.Forall₂ (MadeOf gs) g.components.vec us ∧ (∀ us', List.Forall₂ (MadeOf gs) g.components.vec us' → us' = us) ∧
          ∃ n, ∀ k, n ≤ k → ∃ f rects,
            g'.flattened (fun c => c.toComponent mid pio (d'.files (XmlText.io lay))) k = some (.ok (f, rects)) ∧
            ∃ os, f.outline = some os.flatten ∧ List.Forall₂ NodeDrawn (us.flatMap (lastFirst (·.1))) os :=
  C133_drawn mid pio _ dir gs hs (fun g hg e he => C97_prints pio lay hl g (hx g hg).1 (hx g hg).2 e he) hn hnd hcl hm d hw hd fs hfs

/-- The two glyphs can be said. -/
theorem Sample.two_sayable (pio : PlistIO D) : ∀ g ∈ [Sample.gA D, Sample.ga D], SayableTexts pio g ∧ ∀ n, g.note = some n → ¬ Blank n := by
  intro g hg
  rw [List.mem_cons, List.mem_singleton] at hg
  rcases hg with rfl | rfl
  · refine ⟨⟨attr_ascii (s := "A".toList) (by decide +kernel), fun a h => (nomatch h), fun o h => (nomatch h), ?_, fun i h => (nomatch h),
      fun l h => (nomatch h), fun n h => (nomatch h), fun d h => (nomatch h), fun e h => (nomatch h)⟩, fun n h => (nomatch h)⟩
    intro c hc
    rw [show (Sample.gA D).components.vec = [{ GlifComponent.new with base := "a".toList }] from rfl, List.mem_singleton] at hc
    subst hc
    exact ⟨attr_ascii (by decide +kernel), fun s h => (nomatch h)⟩
  · refine ⟨⟨attr_ascii (s := "a".toList) (by decide +kernel), fun a h => (nomatch h), ?_, fun c h => (nomatch h), fun i h => (nomatch h),
      fun l h => (nomatch h), fun n h => (nomatch h), fun d h => (nomatch h), fun e h => (nomatch h)⟩, fun n h => (nomatch h)⟩
    intro o ho c hc p hp s h
    obtain rfl := Option.some.inj ho
    rw [List.mem_singleton] at hc
    subst hc
    simp only [List.mem_cons, List.not_mem_nil, or_false] at hp
    rcases hp with rfl | rfl | rfl <;> cases h

end GP
