import Verif.Model.MfekSkia
import Verif.Lemmas.Skia
import Verif.Lemmas.Matrix
import Verif.Props.Mfek
import Verif.Spec.Convert
/-!
# The editor's outlines as Skia paths, combined paths, matrices (C71 to C73)
-/
open Fl
namespace GP
variable {PD D : Type}
open Spec

/-! ## C71 -/

theorem mSkPathsLoop_cubic (fx fy : F32 → F32) (o : Outline PD) : ∀ (m : MOutline PD) op cl,
    m.map MContour.inner = o.map MInner.cubic → mSkPathsLoop fx fy op cl m = .ok (skPathsLoop fx fy op cl o) := by
  induction o with
  | nil =>
    intro m op cl h
    obtain rfl : m = [] := List.map_eq_nil_iff.1 h
    rfl
  | cons c o ih =>
    intro m op cl h
    cases m with
    | nil => cases h
    | cons x m =>
      rw [List.map_cons, List.map_cons, List.cons.injEq] at h
      unfold mSkPathsLoop
      rw [h.1]
      cases c with
      | nil => exact ih m _ _ h.2
      | cons p c =>
        simp only [skPathsLoop]
        split
        · exact ih m _ _ h.2
        · exact ih m _ _ h.2

/-- **C71.** An outline of the editor whose contours are all cubic has the Skia paths of those contours,
whatever operations they carry. -/
theorem C71_cubic (fx fy : F32 → F32) (m : MOutline PD) (o : Outline PD) (h : m.map MContour.inner = o.map MInner.cubic) :
    m.toSkiaPaths fx fy = .ok (toSkiaPaths fx fy o) := by
  unfold MOutline.toSkiaPaths
  rw [mSkPathsLoop_cubic fx fy o m [] [] h]
  rfl

theorem mSkPathsLoop_panics (fx fy : F32 → F32) (m : MOutline PD) : ∀ op cl,
    mSkPathsLoop fx fy op cl m = .panic ↔ ∃ x ∈ m, ∀ c, x.inner ≠ .cubic c := by
  induction m with
  | nil => intro op cl; simp [mSkPathsLoop]
  | cons x m ih =>
    intro op cl
    unfold mSkPathsLoop
    cases hx : x.inner with
    | cubic c =>
      have e : (∃ y ∈ x :: m, ∀ c, y.inner ≠ .cubic c) ↔ ∃ y ∈ m, ∀ c, y.inner ≠ .cubic c := by
        constructor
        · rintro ⟨y, hy, h⟩
          rcases List.mem_cons.1 hy with rfl | hy
          · exact absurd hx (h c)
          · exact ⟨y, hy, h⟩
        · rintro ⟨y, hy, h⟩
          exact ⟨y, List.mem_cons_of_mem _ hy, h⟩
      rw [e]
      cases c with
      | nil => exact ih _ _
      | cons p c =>
        simp only []
        split <;> exact ih _ _
    | quad c => exact ⟨fun _ => ⟨x, List.mem_cons_self .., fun c => by rw [hx]; exact nofun⟩, fun _ => rfl⟩
    | hyper c => exact ⟨fun _ => ⟨x, List.mem_cons_self .., fun c => by rw [hx]; exact nofun⟩, fun _ => rfl⟩

/-- **C71.** It panics exactly if some contour is not cubic. -/
theorem C71_panics_iff (fx fy : F32 → F32) (m : MOutline PD) :
    m.toSkiaPaths fx fy = .panic ↔ ∃ x ∈ m, ∀ c, x.inner ≠ .cubic c := by
  rw [← mSkPathsLoop_panics fx fy m [] []]
  unfold MOutline.toSkiaPaths
  cases mSkPathsLoop fx fy [] [] m with
  | ok r => exact ⟨fun h => (nomatch h), fun h => (nomatch h)⟩
  | err e => exact ⟨fun h => (nomatch h), fun h => (nomatch h)⟩
  | panic => exact ⟨fun _ => rfl, fun _ => rfl⟩

/-- **C71.** An outline opened in the editor is drawn as it was. -/
theorem C71_upgrade (fx fy : F32 → F32) (o : Outline PD) : (Outline.upgrade o).toSkiaPaths fx fy = .ok (toSkiaPaths fx fy o) :=
  C71_cubic fx fy _ o (by unfold Outline.upgrade; rw [List.map_map]; rfl)

/-- Contours of the editor that are all cubic and carry an operation. -/
example : ∃ (m : MOutline Unit) (o : Outline Unit), m.map MContour.inner = o.map MInner.cubic ∧ (∃ c ∈ m, c.operation ≠ none) ∧
    (∃ c ∈ o, openContour c = true) ∧ ∃ c ∈ o, openContour c = false := by
  let c1 : Contour Unit := [{ ptype := .move }, { ptype := .line }]
  let c2 : Contour Unit := [{ ptype := .curve }, { ptype := .line }]
  let op : ContourOp (MContour Unit) := .vws { handles := [], join := .miter, capStart := .round, capEnd := .round, removeInternal := false, removeExternal := false }
  refine ⟨[⟨.cubic c1, some op⟩, ⟨.cubic c2, none⟩], [c1, c2], rfl, ⟨_, List.mem_cons_self .., nofun⟩, ⟨c1, by simp, rfl⟩, ⟨c2, by simp, rfl⟩⟩

/-! ## C72 -/

theorem handleOrColocated_moved (fx fy : F32 → F32) (p : Point PD) (wh : WhichHandle) :
    (movedXY fx fy p).handleOrColocated wh = (fx (p.handleOrColocated wh).1, fy (p.handleOrColocated wh).2) := by
  unfold Point.handleOrColocated
  cases wh with
  | A => cases h : p.a <;> simp [Point.handle, movedXY, h]
  | B => cases h : p.b <;> simp [Point.handle, movedXY, h]
  | neither => rfl

theorem skSegment_moved (fx fy : F32 → F32) (p q : Point PD) :
    skSegment id id (movedXY fx fy p) (movedXY fx fy q) = skSegment fx fy p q := by
  unfold skSegment
  simp only [handleOrColocated_moved]
  rfl

theorem skSegments_moved (fx fy : F32 → F32) (l : List (Point PD)) : ∀ p,
    skSegments id id (movedXY fx fy p) (l.map (movedXY fx fy)) = skSegments fx fy p l := by
  induction l with
  | nil => intro p; rfl
  | cons q l ih => intro p; rw [List.map_cons, skSegments, skSegments, skSegment_moved, ih]

/-- **C72.** Converting with point transforms is converting the contour whose points and explicit handles
are moved by them. -/
theorem C72_transforms (fx fy : F32 → F32) (c : Contour PD) :
    toSkiaPath fx fy c = toSkiaPath id id (c.map (movedXY fx fy)) := by
  cases c with
  | nil => rfl
  | cons p rest =>
    have h1 : (rest.map (movedXY fx fy)).getLastD (movedXY fx fy p) = movedXY fx fy (rest.getLastD p) := by
      rw [List.getLastD_eq_getLast?, List.getLastD_eq_getLast?, List.getLast?_map]
      cases rest.getLast? <;> rfl
    simp only [toSkiaPath, List.map_cons, skSegments_moved, h1, skClosing, skSegment_moved]
    rfl

/-- **C72.** The combined path consists of the paths of all contours that have points, each once: those of
the open contours in order, then those of the others in order.  A path is missing exactly if there are no
contours of its kind. -/
theorem C72_combined (fx fy : F32 → F32) (o : Outline PD) :
    skCombined (toSkiaPaths fx fy o) = ((o.filter openContour ++ o.filter fun c => !openContour c).filterMap (toSkiaPath fx fy)).flatten ∧
    ((toSkiaPaths fx fy o).1 = none ↔ ∀ c ∈ o, openContour c = false) ∧
    ((toSkiaPaths fx fy o).2 = none ↔ ∀ c ∈ o, openContour c = false → c = []) := by
  have hn : ∀ l : List SkEl, (skNonempty l).getD [] = l := by
    intro l
    unfold skNonempty
    cases l <;> rfl
  have hz : ∀ l : List SkEl, skNonempty l = none ↔ l = [] := by
    intro l
    unfold skNonempty
    cases l <;> simp
  have hf : ∀ l : Outline PD, (l.filterMap (toSkiaPath fx fy)).flatten = [] ↔ ∀ c ∈ l, c = [] := by
    intro l
    induction l with
    | nil => simp
    | cons c l ih =>
      cases c with
      | nil =>
        have : List.filterMap (toSkiaPath fx fy) ([] :: l) = l.filterMap (toSkiaPath fx fy) := rfl
        rw [this, ih]
        simp
      | cons p c => simp [toSkiaPath]
  rw [toSkiaPaths_eq]
  refine ⟨?_, ?_, ?_⟩
  · simp [skCombined, hn]
  · rw [hz, hf]
    constructor
    · intro h c hc
      cases ho : openContour c with
      | false => rfl
      | true =>
        have := h c (List.mem_filter.2 ⟨hc, ho⟩)
        subst this
        cases ho
    · intro h c hc
      obtain ⟨h1, h2⟩ := List.mem_filter.1 hc
      rw [h c h1] at h2
      cases h2
  · rw [hz, hf]
    constructor
    · intro h c hc ho
      exact h c (List.mem_filter.2 ⟨hc, by rw [ho]; rfl⟩)
    · intro h c hc
      obtain ⟨h1, h2⟩ := List.mem_filter.1 hc
      exact h c h1 (by simpa using h2)

/-! ## C73 -/

/-- **C73.** A Skia point survives the conversion to a kurbo point and back. -/
theorem C73_points (p : SkPoint) : skOfKurbo p.toKurbo = p := by
  unfold skOfKurbo SkPoint.toKurbo
  simp only [to32_to64]

theorem normZero_sign {f : Fmt} {s : Bool} {k k' : Nat} {h : k ≤ f.inf} {h' : k' ≤ f.inf}
    (e : (Flt.num s k h).normZero = (Flt.num s k' h').normZero) : (Flt.num s k h : Flt f) = .num s k' h' := by
  unfold Flt.normZero at e
  rw [Flt.num.injEq] at e ⊢
  exact ⟨rfl, e.2⟩

theorem cast_sign {f g : Fmt} {s : Bool} {k : Nat} {h : k ≤ f.inf} (hk : k < f.inf) :
    ∃ k' h', Flt.cast g (.num s k h : Flt f) = .num s k' h' := by
  unfold Flt.cast
  simp only [if_neg (Nat.ne_of_lt hk)]
  exact ⟨_, g.round_le _ _, rfl⟩

theorem to32_ofInt (i : Int) (h : i.natAbs ≤ 2 ^ b64.p) : F64.to32 (Flt.ofInt b64 i) = Flt.ofInt b32 i := by
  obtain ⟨z, hz⟩ := exists_int b64_p b64_inf_big h
  have he := ofInt_exact b64_p hz
  have h1 := to32_of_int he
  obtain ⟨s, k, hk, e, hkl⟩ := finite_num he.1
  have hs : s = decide (i < 0) := by
    have e' : Flt.num (decide (i < 0)) (b64.round i.natAbs 1) (b64.round_le _ _) = Flt.num s k hk := e
    rw [Flt.num.injEq] at e'
    exact e'.1.symm
  obtain ⟨k', hk', e2⟩ : ∃ k' h', F64.to32 (.num s k hk) = .num s k' h' := cast_sign hkl
  have e3 : Flt.ofInt b32 i = .num s (b32.round i.natAbs 1) (b32.round_le _ _) := by rw [hs]; rfl
  rw [e] at h1 ⊢
  rw [e2, e3] at h1 ⊢
  exact normZero_sign h1

theorem to32_toF64 (x : IOF) : x.toF64.to32 = x.toF32 := by
  cases x with
  | float f => exact to32_to64 f
  | int i h =>
    refine to32_ofInt i ?_
    rw [IOF.i32ok_iff] at h
    have h1 : i.natAbs ≤ 2 ^ 31 := by omega
    exact Nat.le_trans h1 (Nat.pow_le_pow_right (by decide) (by decide))

/-- **C73.** The Skia matrix of a component or image has its six coefficients as `f32`, each in its place. -/
theorem C73_skia_matrix (m : Mat6) :
    m.toSkia = { a := m.xScale.toF32, b := m.xyScale.toF32, c := m.yxScale.toF32, d := m.yScale.toF32, e := m.xOffset.toF32, f := m.yOffset.toF32 } := by
  simp only [Mat6.toSkia, Mat6.affine, Affine.toSkia, to32_toF64]

theorem isF32_iff (x : F64) : x.to32.to64 = x ↔ isF32 x :=
  ⟨fun h => ⟨_, h⟩, by rintro ⟨y, rfl⟩; rw [to32_to64]⟩

/-- **C73.** Setting the matrix of an image changes nothing else, and gives it this matrix exactly if all six
coefficients are `f32`s. -/
theorem C73_set_matrix (i : GlifImage) (m : Affine) :
    ((i.setMatrix m).filename = i.filename ∧ (i.setMatrix m).identifier = i.identifier ∧ (i.setMatrix m).color = i.color) ∧
    ((i.setMatrix m).m.affine = m ↔ isF32 m.a ∧ isF32 m.b ∧ isF32 m.c ∧ isF32 m.d ∧ isF32 m.e ∧ isF32 m.f) := by
  refine ⟨⟨rfl, rfl, rfl⟩, ?_⟩
  obtain ⟨a, b, c, d, e, f⟩ := m
  simp only [GlifImage.setMatrix, Mat6.affine, IOF.toF64, Aff.mk.injEq, isF32_iff]

/-- **C73.** Whatever the matrix set, Skia draws the image with the same matrix. -/
theorem C73_set_matrix_skia (i : GlifImage) (m : Affine) : (i.setMatrix m).m.toSkia = m.toSkia := by
  simp only [GlifImage.setMatrix, Mat6.toSkia, Mat6.affine, Affine.toSkia, IOF.toF64, to32_to64]

/-- A matrix of `f32`s. -/
example : ∃ m : Affine, m ≠ Affine.identity ∧ isF32 m.a ∧ isF32 m.b ∧ isF32 m.c ∧ isF32 m.d ∧ isF32 m.e ∧ isF32 m.f :=
  let x : F32 := Flt.ofFrac b32 false 1 10
  ⟨⟨x.to64, x.to64, x.to64, x.to64, x.to64, x.to64⟩, by decide +kernel, ⟨x, rfl⟩, ⟨x, rfl⟩, ⟨x, rfl⟩, ⟨x, rfl⟩, ⟨x, rfl⟩, ⟨x, rfl⟩⟩

/-- **C73 is false of the code** for large integers: an image given its own matrix has another one. -/
theorem C73_false : ∃ i : GlifImage, (i.setMatrix i.m.affine).m.affine ≠ i.m.affine := by
  refine ⟨{ GlifImage.fromFilename [] with m := { (GlifImage.fromFilename []).m with xOffset := .int 16777217 } }, ?_⟩
  intro h
  have := congrArg Aff.e h
  revert this
  decide +kernel

/-! ## C47 -/

/-- **C47 is false of the code** for images moved in the editor: the matrices there are ignored on the way
back. -/
theorem C47_false_images (m : MGlif PD) (l : Layer PD) (ls : List (Layer PD)) (hm : m.layers = l :: ls)
    (images : List (GlifImage × Affine)) (hi : images.map Prod.fst = l.images.map Prod.fst) :
    ({ m with layers := { l with images := images } :: ls } : MGlif PD).toGlif = (m.toGlif : Out MfekErr (Glif PD D)) := by
  unfold MGlif.toGlif
  rw [hm]
  simp only [hi]

end GP
