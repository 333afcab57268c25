import Verif.Spec.SkiaFile
import Verif.Props.SkiaStrokes
import Verif.Props.ReadPoints
/-!
# What cubic contours of files draw (C112)
-/
open Fl
namespace GP
variable {PD : Type}
open Spec

/-- What is drawn for a segment. -/
def drawnPiece : FilePiece → Stroke
  | (s, offs, e) =>
    if e.ptype = .curve then
      .cubic (placeInFile s) ((offs[0]?.map placeInFile).getD (placeInFile s)) ((offs[1]?.map placeInFile).getD (placeInFile e)) (placeInFile e)
    else .line (placeInFile s) (placeInFile e)

theorem outPos_withHandles (b : Option GlifPoint) (g : GlifPoint) (a : Option GlifPoint) :
    outPos (withHandles b g a : Point PD) = (a.map placeInFile).getD (placeInFile g) := by
  cases a <;> rfl

theorem inPos_withHandles (b : Option GlifPoint) (g : GlifPoint) (a : Option GlifPoint) :
    inPos (withHandles b g a : Point PD) = (b.map placeInFile).getD (placeInFile g) := by
  cases b <;> rfl

theorem wantedStroke_withHandles (b b' : Option GlifPoint) (g g' : GlifPoint) (a' : Option GlifPoint) (offs : List GlifPoint) (h : g'.ptype = .curve → b' = offs[1]?) :
    wantedStroke (withHandles b g offs[0]?, withHandles (PD := PD) b' g' a') = drawnPiece (g, offs, g') := by
  simp only [wantedStroke, drawnPiece, outPos_withHandles, inPos_withHandles]
  by_cases hc : g'.ptype = .curve
  · rw [h hc, if_pos (by exact hc), if_pos hc]; rfl
  · rw [if_neg (by exact hc), if_neg hc]; rfl

/-- The points read, from a segment on. -/
theorem curvesOf_split (gs : GSegs) (back : List GlifPoint) : ∀ (b : Option GlifPoint) (g : GlifPoint),
    ∃ (a : Option GlifPoint) (l : Contour PD), curvesOf b g gs back = withHandles b g a :: l ∧
      ((withHandles b g a :: l).zip l).map wantedStroke = (filePieces g gs).map drawnPiece ∧
      (∃ b', l.getLastD (withHandles b g a) = withHandles b' (lastOn g gs) back[0]?) ∧
      (∀ x ∈ l, ∃ s ∈ gs, x.ptype = s.2.ptype) := by
  induction gs with
  | nil =>
    intro b g
    refine ⟨back[0]?, [], rfl, by rw [List.zip_nil_right]; rfl, ⟨b, rfl⟩, fun x hx => by cases hx⟩
  | cons s gs ih =>
    obtain ⟨offs, g'⟩ := s
    intro b g
    obtain ⟨a, l, h1, h2, ⟨b', h3⟩, h4⟩ := ih offs[1]? g'
    refine ⟨offs[0]?, withHandles offs[1]? g' a :: l, ?_, ?_, ⟨b', ?_⟩, ?_⟩
    · rw [curvesOf, h1]
    · rw [List.zip_cons_cons, List.map_cons, h2, filePieces, List.map_cons, wantedStroke_withHandles _ _ _ _ _ _ fun _ => rfl]
    · rw [List.getLastD_cons, h3, lastOn]
    · intro x hx
      rcases List.mem_cons.1 hx with rfl | hx
      · exact ⟨_, List.mem_cons_self .., rfl⟩
      · obtain ⟨s, hs, he⟩ := h4 x hx
        exact ⟨s, List.mem_cons_of_mem _ hs, he⟩

/-- What is drawn for a segment is what should be, but for quadratic curves. -/
theorem drawnPiece_iff (x : FilePiece) (hx : x.2.1.length ≤ 2) : (drawnPiece x).poly = x.stroke.poly ↔
    ∀ h, x.quadratic h → quadToCubic twoThirds (placeInFile x.1) (placeInFile h) (placeInFile x.2.2) =
      (placeInFile x.1, placeInFile h, placeInFile x.2.2, placeInFile x.2.2) := by
  obtain ⟨s, offs, e⟩ := x
  simp only [FilePiece.quadratic, drawnPiece, FilePiece.stroke]
  by_cases hc : e.ptype = .curve
  · rw [if_pos hc, if_pos hc]
    rcases offs with _ | ⟨h, _ | ⟨k, _ | ⟨m, offs⟩⟩⟩
    · simp [Stroke.poly]
    · simp only [hc, true_and, List.cons.injEq, and_true]
      constructor
      · intro hp g hg
        subst hg
        exact hp.symm
      · intro hp
        exact (hp h rfl).symm
    · simp [Stroke.poly]
    · simp at hx
  · rw [if_neg hc, if_neg hc]
    simp [hc]

/-- **C112**, exactly.  A contour of lines and curves in a file, which begins with an on-curve point and has at most two
off-curve points before each other one, is read as a contour whose Skia path is one contour.  It is closed if the first
point is no `move`.  It draws what the file says if and only if each curve with one off-curve point, which should be
quadratic, has the same control polygon as the cubic curve with its second control point at its end. -/
theorem C112_exact (conic : ConicToQuads) (mid : IOF → IOF → IOF) (g : GlifPoint) (gs : List (List GlifPoint × GlifPoint)) (back : List GlifPoint)
    (hg : g.ptype = .move ∨ g.ptype = .line ∨ g.ptype = .curve) (hgs : ∀ s ∈ gs, s.2.ptype = .line ∨ s.2.ptype = .curve)
    (hoff : ∀ s ∈ gs, (∀ o ∈ s.1, o.ptype = .offcurve) ∧ s.1.length ≤ 2) (hback : (∀ o ∈ back, o.ptype = .offcurve) ∧ back.length ≤ 2)
    (hl : g.ptype = .move → gs ≠ []) :
    ∃ (d : Contour PD) (c : SkContour), contourOfGlif mid (g :: gs.flatMap (fun s => s.1 ++ [s.2]) ++ back) = .ok d ∧
      toSkiaPath id id d = some c.els ∧ (c.closed = true ↔ g.ptype ≠ .move) ∧
      ((c.strokes conic).map Stroke.poly = (fileStrokes g gs back).map Stroke.poly ↔
        ∀ x ∈ filePieces g gs ++ closingPiece g gs back, ∀ h, x.quadratic h →
          quadToCubic twoThirds (placeInFile x.1) (placeInFile h) (placeInFile x.2.2) =
            (placeInFile x.1, placeInFile h, placeInFile x.2.2, placeInFile x.2.2)) := by
  have hread : contourOfGlif (PD := PD) mid (g :: gs.flatMap (fun s => s.1 ++ [s.2]) ++ back) =
      cubicContour (g :: gs.flatMap (fun s => s.1 ++ [s.2]) ++ back) := by
    rcases hg with hg | hg | hg <;> simp only [List.cons_append, contourOfGlif, hg]
  obtain ⟨e1, e2⟩ := handedOn_short fun s hs => (hoff s hs).2
  rw [hread, cubicContour_eq g gs back hg (fun s hs => ⟨(hoff s hs).1, Or.inr (hgs s hs)⟩) hback.1 hl, e1, e2, List.nil_append]
  obtain ⟨a, l, h1, h2, ⟨b', h3⟩, h4⟩ := curvesOf_split (PD := PD) gs back (if g.ptype = .move then none else back[1]?) g
  obtain ⟨c, c1, c2, c3⟩ := C110_draws conic (withHandles (if g.ptype = .move then none else back[1]?) g a) l hg fun x hx => by
    obtain ⟨s, hs, he⟩ := h4 x hx
    rw [he]; exact hgs s hs
  generalize hb0 : (if g.ptype = .move then none else back[1]?) = b0 at h1 h2 h3 c1 c2 c3 ⊢
  have hopen : openContour (withHandles b0 g a :: l : Contour PD) = decide (g.ptype = .move) := rfl
  refine ⟨_, c, rfl, by rw [h1]; exact c1, by rw [c2, hopen]; simp, ?_⟩
  have hs : c.strokes conic = (filePieces g gs ++ closingPiece g gs back).map drawnPiece := by
    rw [c3, h3]
    unfold wantedStrokes
    rw [hopen]
    have hp : ∀ b a, ((withHandles b g a : Point PD).x, (withHandles b g a : Point PD).y) = placeInFile g := fun _ _ => rfl
    have hq : ((withHandles b' (lastOn g gs) back[0]? : Point PD).x, (withHandles b' (lastOn g gs) back[0]? : Point PD).y) = placeInFile (lastOn g gs) := rfl
    have ht : ∀ b a, (withHandles b g a : Point PD).ptype = g.ptype := fun _ _ => rfl
    rw [hp, hq, ht]
    by_cases hm : g.ptype = .move
    · have hcl : closingPiece g gs back = [] := if_pos hm
      have hn : ¬ (g.ptype = .line ∧ sameOrNaN (placeInFile (lastOn g gs)) (placeInFile g)) := by rw [hm]; simp
      rw [if_neg hn, if_pos (decide_eq_true hm), hcl, List.append_nil]
      exact h2
    · have hcl : closingPiece g gs back = if g.ptype = .line ∧ sameOrNaN (placeInFile (lastOn g gs)) (placeInFile g) then [] else [(lastOn g gs, back, g)] :=
        if_neg hm
      have hd : ¬ decide (g.ptype = .move) = true := by simpa using hm
      rw [if_neg hd, closedPairs_any, List.map_append, h2, h3, List.map_cons, List.map_nil,
        wantedStroke_withHandles _ _ _ _ _ _ fun hc => by rw [← hb0, if_neg hm], hcl, List.map_append]
      split
      · rw [List.dropLast_concat]; simp
      · rfl
  rw [hs, fileStrokes, List.map_map, List.map_map, List.map_inj_left]
  have hlen : ∀ x ∈ filePieces g gs ++ closingPiece g gs back, x.2.1.length ≤ 2 := by
    intro x hx
    rcases List.mem_append.1 hx with hx | hx
    · have : ∀ (gs : GSegs) (g : GlifPoint), (∀ s ∈ gs, s.1.length ≤ 2) → ∀ x ∈ filePieces g gs, x.2.1.length ≤ 2 := by
        intro gs
        induction gs with
        | nil => intro g _ x hx; cases hx
        | cons s gs ih =>
          intro g h x hx
          rcases List.mem_cons.1 hx with rfl | hx
          · exact h s (List.mem_cons_self ..)
          · exact ih _ (fun s hs => h s (List.mem_cons_of_mem _ hs)) x hx
      exact this gs g (fun s hs => (hoff s hs).2) x hx
    · unfold closingPiece at hx
      split at hx
      · cases hx
      · split at hx
        · cases hx
        · rw [List.mem_singleton.1 hx]; exact hback.2
  exact forall₂_congr fun x hx => drawnPiece_iff x (hlen x hx)

/-- **C112**, as far as it holds: no curve has exactly one off-curve point. -/
theorem C112_partial (conic : ConicToQuads) (mid : IOF → IOF → IOF) (g : GlifPoint) (gs : List (List GlifPoint × GlifPoint)) (back : List GlifPoint)
    (hg : g.ptype = .move ∨ g.ptype = .line ∨ g.ptype = .curve) (hgs : ∀ s ∈ gs, s.2.ptype = .line ∨ s.2.ptype = .curve)
    (hoff : ∀ s ∈ gs, (∀ o ∈ s.1, o.ptype = .offcurve) ∧ (s.1.length = 0 ∨ s.1.length = 2))
    (hback : (∀ o ∈ back, o.ptype = .offcurve) ∧ (back.length = 0 ∨ back.length = 2))
    (hl : g.ptype = .move → gs ≠ []) :
    ∃ (d : Contour PD) (c : SkContour), contourOfGlif mid (g :: gs.flatMap (fun s => s.1 ++ [s.2]) ++ back) = .ok d ∧
      toSkiaPath id id d = some c.els ∧ (c.closed = true ↔ g.ptype ≠ .move) ∧
      (c.strokes conic).map Stroke.poly = (fileStrokes g gs back).map Stroke.poly := by
  obtain ⟨d, c, h1, h2, h3, h4⟩ := C112_exact (PD := PD) conic mid g gs back hg hgs (fun s hs => ⟨(hoff s hs).1, by have := (hoff s hs).2; omega⟩)
    ⟨hback.1, by have := hback.2; omega⟩ hl
  refine ⟨d, c, h1, h2, h3, h4.2 fun x hx h hq => ?_⟩
  have hlen : x.2.1.length = 0 ∨ x.2.1.length = 2 := by
    rcases List.mem_append.1 hx with hx | hx
    · have : ∀ (gs : GSegs) (g : GlifPoint), (∀ s ∈ gs, s.1.length = 0 ∨ s.1.length = 2) → ∀ x ∈ filePieces g gs, x.2.1.length = 0 ∨ x.2.1.length = 2 := by
        intro gs
        induction gs with
        | nil => intro g _ x hx; cases hx
        | cons s gs ih =>
          intro g h x hx
          rcases List.mem_cons.1 hx with rfl | hx
          · exact h s (List.mem_cons_self ..)
          · exact ih _ (fun s hs => h s (List.mem_cons_of_mem _ hs)) x hx
      exact this gs g (fun s hs => (hoff s hs).2) x hx
    · unfold closingPiece at hx
      split at hx
      · cases hx
      · split at hx
        · cases hx
        · rw [List.mem_singleton.1 hx]; exact hback.2
  rw [hq.2] at hlen
  simp at hlen

/-- **C112 is false of the code**: a curve with one off-curve point is drawn as a cubic curve whose second control point is
its end, not as the quadratic curve that the format says. -/
theorem C112_false (conic : ConicToQuads) (mid : IOF → IOF → IOF) :
    ∃ (g : GlifPoint) (gs : List (List GlifPoint × GlifPoint)) (d : Contour Unit) (c : SkContour),
      contourOfGlif mid (g :: gs.flatMap (fun s => s.1 ++ [s.2])) = .ok d ∧ toSkiaPath id id d = some c.els ∧
      (c.strokes conic).map Stroke.poly ≠ (fileStrokes g gs []).map Stroke.poly := by
  obtain ⟨d, c, h1, h2, -, h4⟩ := C112_exact (PD := Unit) conic mid (filePt .move 0 0) [([filePt .offcurve 30 0], filePt .curve 30 30)] []
    (Or.inl rfl) (by decide) (by decide) (by decide) (by decide)
  refine ⟨_, _, d, c, by rw [List.append_nil] at h1; exact h1, h2, fun h => ?_⟩
  have := h4.1 h (filePt .move 0 0, [filePt .offcurve 30 0], filePt .curve 30 30) (List.mem_cons_self ..) (filePt .offcurve 30 0) ⟨rfl, rfl⟩
  revert this
  decide +kernel

/-- A closed contour that meets the hypotheses of `C112_partial`: a line, a curve, a curve without handles, and a curve
back to the beginning. -/
example : ∃ (g : GlifPoint) (gs : List (List GlifPoint × GlifPoint)) (back : List GlifPoint), g.ptype = .curve ∧
    (∀ s ∈ gs, s.2.ptype = .line ∨ s.2.ptype = .curve) ∧ (∀ s ∈ gs, (∀ o ∈ s.1, o.ptype = .offcurve) ∧ (s.1.length = 0 ∨ s.1.length = 2)) ∧
    ((∀ o ∈ back, o.ptype = .offcurve) ∧ (back.length = 0 ∨ back.length = 2)) ∧ (fileStrokes g gs back).length = 4 :=
  ⟨filePt .curve 0 0, [([], filePt .line 10 0), ([filePt .offcurve 20 0, filePt .offcurve 30 10], filePt .curve 30 20), ([], filePt .curve 0 20)],
    [filePt .offcurve (-10) 20, filePt .offcurve (-10) 0], rfl, by decide, by decide, by decide, rfl⟩

end GP
