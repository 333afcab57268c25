import Verif.Props.KurboPath
/-!
# Drawings through kurbo and back (C118)
-/
open Fl
namespace GP
variable {PD : Type}
open Spec

theorem inSingle_pos64 (p : Point PD) : inSingle (pos64 p) = pos64 p := by
  unfold inSingle pos64
  rw [to32_to64, to32_to64]

theorem inSingle_float {gp : GlifPoint} {x y : F32} (hx : gp.x = .float x) (hy : gp.y = .float y) : inSingle gp.kpoint = gp.kpoint := by
  unfold inSingle GlifPoint.kpoint
  rw [hx, hy]
  simp only [IOF.toF64, to32_to64]

/-- The segment of a kurbo path that an operation between two points is. -/
theorem opOf_kseg (x : Point PD × Point PD) : ∃ g : KSeg, (opOf x).pathEl = g.el ∧ elInSingle g.el = g.el := by
  unfold opOf
  split
  · refine ⟨.line _, rfl, ?_⟩
    exact congrArg PathEl.lineTo (inSingle_float rfl rfl)
  · refine ⟨.cubic _ _ _, rfl, ?_⟩
    simp only [KSeg.el, elInSingle]
    rw [inSingle_float (gp := .fromHandle x.1 .A) rfl rfl, inSingle_float (gp := .fromHandle x.2 .B) rfl rfl, inSingle_float (gp := .ofPoint x.2) rfl rfl]

theorem opsOf_ksegs (l : List (Point PD × Point PD)) : ∃ gs : List KSeg, (l.map opOf).map PenOp.pathEl = gs.map KSeg.el ∧
    (gs.map KSeg.el).map elInSingle = gs.map KSeg.el ∧ gs.length = l.length := by
  induction l with
  | nil => exact ⟨[], rfl, rfl, rfl⟩
  | cons x l ih =>
    obtain ⟨gs, h1, h2, h3⟩ := ih
    obtain ⟨g, h4, h5⟩ := opOf_kseg x
    refine ⟨g :: gs, ?_, ?_, congrArg (· + 1) h3⟩
    · rw [List.map_cons, List.map_cons, h1, h4]
      rfl
    · rw [List.map_cons, List.map_cons, h2, h5]

/-- The path of a closed contour is a closed subpath, in single precision. -/
theorem kurbo_sub {c : Contour PD} (hc : isClosed c = true) : ∃ k : KSub, contourIntoKurbo c = .ok k.els ∧ k.closed = true ∧ k.segs ≠ [] ∧
    k.els.map elInSingle = k.els := by
  obtain ⟨p, q, rest, -, -, hk⟩ := kurbo_closed hc
  obtain ⟨gs, h1, h2, h3⟩ : ∃ gs : List KSeg, (midOps p q rest).map PenOp.pathEl = gs.map KSeg.el ∧
      (gs.map KSeg.el).map elInSingle = gs.map KSeg.el ∧ gs ≠ [] := by
    obtain ⟨gs, h1, h2, h3⟩ := opsOf_ksegs ((q :: rest).zip (rest ++ [p]))
    have hne : gs ≠ [] := by
      rintro rfl
      cases rest <;> simp at h3
    unfold midOps
    split
    · exact ⟨gs, h1, h2, hne⟩
    · obtain ⟨g, h4, h5⟩ := opOf_kseg (p, q)
      refine ⟨g :: gs, ?_, ?_, by simp⟩
      · rw [List.map_append, h1, List.map_cons, List.map_nil, h4]
        rfl
      · rw [List.map_cons, List.map_cons, h2, h5]
  refine ⟨⟨pos64 p, gs, true⟩, ?_, rfl, h3, ?_⟩
  · rw [hk, h1]
    rfl
  · unfold KSub.els
    simp only [List.map_cons, List.map_append, h2, if_true, List.map_nil, elInSingle, inSingle_pos64]

/-- The path of a contour of curves, or of lines, draws it. -/
theorem curvesOrLines_draws {c : Contour PD} (h : CurvesOrLines c) : ∃ k : KSub, contourIntoKurbo c = .ok k.els ∧ k.closed = true ∧ k.segs ≠ [] ∧
    k.els.map elInSingle = k.els ∧ DrawsClosed c k.els := by
  obtain ⟨p, q, rest, rfl, hp, h⟩ := h
  obtain ⟨k, h1, h2, h3, h4⟩ := kurbo_sub (closed_of p q rest hp)
  refine ⟨k, h1, h2, h3, h4, ?_⟩
  rcases h with ⟨hx, hy, h⟩ | ⟨hd, h⟩
  · obtain ⟨els, h5, h6⟩ := C107_curves p q rest hp hx hy h
    rw [h1] at h5
    cases h5
    exact h6
  · obtain ⟨els, h5, h6⟩ := C107_lines p q rest hp hd h
    rw [h1] at h5
    cases h5
    exact h6

theorem sameLines_of {c d : Contour PD} {k : KSub} (hk : k.closed = true) (hs : k.els.map elInSingle = k.els) (hc : DrawsClosed c k.els)
    (hd : DrawsSub k d) : SameLinesAndCurves c d := by
  obtain ⟨h1, segs, h2, h3⟩ := hd
  rw [hk] at h1 h3
  rw [hs, hc] at h2
  cases h2
  exact ⟨h1, h3⟩

/-- **C118**, for outlines of closed contours that have only curves or only lines: the outline that comes back from kurbo
draws the same lines and curves, contour by contour, in the same order and from the same starting point.  Missing: contours
with both, for which it is false (`C118_false`), the empty outline (C34), and lines through the point where the contour
starts. -/
theorem C118_partial (o : Outline PD) (hne : o ≠ []) (h : ∀ c ∈ o, CurvesOrLines c) :
    ∃ els o', outlineIntoKurbo o = .ok els ∧ (outlineFromKurbo els : R (Outline PD)) = .ok o' ∧
      List.Forall₂ SameLinesAndCurves o o' := by
  obtain ⟨ks, h1, h2⟩ : ∃ ks : List KSub, outlineIntoKurbo o = .ok (ks.flatMap KSub.els) ∧
      List.Forall₂ (fun c (k : KSub) => k.closed = true ∧ k.segs ≠ [] ∧ k.els.map elInSingle = k.els ∧ DrawsClosed c k.els) o ks := by
    clear hne
    induction o with
    | nil => exact ⟨[], rfl, .nil⟩
    | cons c o ih =>
      obtain ⟨ks, h1, h2⟩ := ih fun d hd => h d (List.mem_cons_of_mem _ hd)
      obtain ⟨k, h3, h4⟩ := curvesOrLines_draws (h c (List.mem_cons_self ..))
      refine ⟨k :: ks, ?_, .cons h4 h2⟩
      rw [outlineIntoKurbo, h3, h1]
      rfl
  have hlen : 2 ≤ (ks.flatMap KSub.els).length := by
    cases h2 with
    | nil => exact absurd rfl hne
    | @cons c k o ks hk _ =>
      rw [List.flatMap_cons, List.length_append]
      have := List.length_pos_iff.2 hk.2.1
      simp only [KSub.els, List.length_cons, List.length_append, List.length_map]
      omega
  obtain ⟨o', h3, h4⟩ := C117_partial (PD := PD) ks hlen (by
    intro k hk
    obtain ⟨c, -, hk⟩ : ∃ c ∈ o, k.closed = true ∧ k.segs ≠ [] := by
      clear h h1 hne hlen
      induction h2 with
      | nil => cases hk
      | @cons c k' o ks hx _ ih =>
        rcases List.mem_cons.1 hk with rfl | hk
        · exact ⟨c, List.mem_cons_self .., hx.1, hx.2.1⟩
        · obtain ⟨c, hc, h⟩ := ih hk
          exact ⟨c, List.mem_cons_of_mem _ hc, h⟩
    unfold LostSub
    rw [if_pos hk.1]
    exact fun e => hk.2 e.1)
  refine ⟨_, o', h1, h3, ?_⟩
  clear h h1 h3 hne hlen
  induction h2 generalizing o' with
  | nil => cases h4; exact .nil
  | cons hx _ ih =>
    cases h4 with
    | cons hd ht => exact .cons (sameLines_of hx.1 hx.2.2.1 hx.2.2.2 hd) (ih _ ht)

/-- A triangle of lines. -/
def kLines : Contour Unit :=
  [{ x := Flt.ofInt b32 0, y := Flt.ofInt b32 0, ptype := .line }, { x := Flt.ofInt b32 5, y := Flt.ofInt b32 0, ptype := .line },
   { x := Flt.ofInt b32 0, y := Flt.ofInt b32 5, ptype := .line }]

/-- A contour of two curves. -/
def kCurves : Contour Unit :=
  [{ x := Flt.ofInt b32 0, y := Flt.ofInt b32 0, a := .at (Flt.ofInt b32 1) (Flt.ofInt b32 2), b := .at (Flt.ofInt b32 3) (Flt.ofInt b32 4), ptype := .curve },
   { x := Flt.ofInt b32 5, y := Flt.ofInt b32 0, a := .at (Flt.ofInt b32 5) (Flt.ofInt b32 6), b := .at (Flt.ofInt b32 7) (Flt.ofInt b32 8), ptype := .curve }]

example : ∀ c ∈ [kLines, kCurves], CurvesOrLines c := by
  intro c hc
  rcases List.mem_cons.1 hc with rfl | hc
  · exact ⟨_, _, _, rfl, by decide, .inr ⟨by decide +kernel, by decide +kernel⟩⟩
  · rw [List.mem_singleton.1 hc]
    exact ⟨_, _, _, rfl, by decide, .inl ⟨by decide +kernel, by decide +kernel, by decide +kernel⟩⟩

/-- A contour of a curve and two lines. -/
def kMixed : Contour Unit :=
  [{ x := Flt.ofInt b32 0, y := Flt.ofInt b32 0, a := .at (Flt.ofInt b32 1) (Flt.ofInt b32 2), ptype := .curve },
   { x := Flt.ofInt b32 5, y := Flt.ofInt b32 0, ptype := .line }, { x := Flt.ofInt b32 0, y := Flt.ofInt b32 5, ptype := .line }]

/-- **C118 is false of the code** for a contour of a curve and two lines. -/
theorem C118_false : ∃ els d, outlineIntoKurbo [kMixed] = .ok els ∧ (outlineFromKurbo els : R (Outline Unit)) = .ok [d] ∧
    ¬ SameLinesAndCurves kMixed d := by
  refine ⟨_, _, rfl, rfl, fun h => ?_⟩
  have := h.2
  revert this
  decide +kernel

end GP
