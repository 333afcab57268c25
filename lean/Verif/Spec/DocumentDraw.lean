import Verif.Spec.Read
import Verif.Spec.SkiaFile
/-!
# What the contours of a document draw
-/
open Fl
namespace GP.Spec
variable {PD : Type}

/-- What a `<point>` element says: the numbers in its attributes, its type, its name, and whether it is smooth. -/
def PointElement (e : Element) (g : GlifPoint) : Prop :=
  AttrNumber e "x" g.x ∧ AttrNumber e "y" g.y ∧ TypeSays e g.ptype ∧ g.name = e.get "name" ∧
  (g.smooth = true ↔ e.get "smooth" = some "yes".toList ∧ ¬ IsOff e)

/-- The points a `<contour>` element says, in order. -/
def ContourElement (e : Element) (gc : List GlifPoint) : Prop := List.Forall₂ PointElement (named "point" e.children) gc

/-- The Skia path of a contour is one contour with the pieces given, up to curves that are as well lines. -/
def Draws (conic : ConicToQuads) (c : Contour PD) (closed : Prop) (l : List Stroke) : Prop :=
  ∃ k : SkContour, toSkiaPath id id c = some k.els ∧ (k.closed = true ↔ closed) ∧ (k.strokes conic).map Stroke.poly = l.map Stroke.poly

/-- On-curve points that begin a contour of lines and curves, with `most` off-curve points at most before each. -/
structure CubicPoints (most : Nat) (g : GlifPoint) (gs : List (List GlifPoint × GlifPoint)) (back : List GlifPoint) : Prop where
  first : g.ptype = .move ∨ g.ptype = .line ∨ g.ptype = .curve
  ons : ∀ s ∈ gs, s.2.ptype = .line ∨ s.2.ptype = .curve
  offs : ∀ s ∈ gs, (∀ o ∈ s.1, o.ptype = .offcurve) ∧ s.1.length ≤ most
  back : (∀ o ∈ back, o.ptype = .offcurve) ∧ back.length ≤ most
  more : g.ptype = .move → gs ≠ []

/-- None of the segments has exactly one off-curve point. -/
def NoQuadratic (gs : List (List GlifPoint × GlifPoint)) (back : List GlifPoint) : Prop :=
  (∀ s ∈ gs, s.1.length ≠ 1) ∧ back.length ≠ 1

/-- A contour draws what the points of the file say: lines and cubic curves. -/
def DrawsCubic (conic : ConicToQuads) (gc : List GlifPoint) (c : Contour PD) : Prop :=
  ∀ g gs back, gc = g :: gs.flatMap (fun s => s.1 ++ [s.2]) ++ back → CubicPoints 2 g gs back → NoQuadratic gs back →
    Draws conic c (g.ptype ≠ .move) (fileStrokes g gs back)

/-- A contour draws what the points of the file say: quadratic curves, the last point being on-curve. -/
def DrawsQuadratic (conic : ConicToQuads) (mid : IOF → IOF → IOF) (gc : List GlifPoint) (c : Contour PD) : Prop :=
  ∀ g l, gc = g :: l → g.ptype = .qcurve → (∀ x ∈ l, x.ptype = .qcurve ∨ x.ptype = .offcurve) → (∀ z ∈ l.getLast?, z.ptype = .qcurve) →
    Draws conic c True (quadStrokes mid (placeInFile g) (placeInFile g) none l)

/-- The Skia path of a contour is one contour with exactly the pieces given. -/
def DrawsJust (conic : ConicToQuads) (c : Contour PD) (closed : Prop) (l : List Stroke) : Prop :=
  ∃ k : SkContour, toSkiaPath id id c = some k.els ∧ (k.closed = true ↔ closed) ∧ k.strokes conic = l

/-- A contour of lines and curves draws what the points of the file say, if and only if each curve with one off-curve
point, a quadratic one, has the same control polygon as the cubic curve with that point and its end as control points. -/
def DrawsCubicExactly (conic : ConicToQuads) (gc : List GlifPoint) (c : Contour PD) : Prop :=
  ∀ g gs back, gc = g :: gs.flatMap (fun s => s.1 ++ [s.2]) ++ back → CubicPoints 2 g gs back →
    (Draws conic c (g.ptype ≠ .move) (fileStrokes g gs back) ↔
      ∀ x ∈ filePieces g gs ++ closingPiece g gs back, ∀ h, x.quadratic h →
        quadToCubic twoThirds (placeInFile x.1) (placeInFile h) (placeInFile x.2.2) =
          (placeInFile x.1, placeInFile h, placeInFile x.2.2, placeInFile x.2.2))

/-- A contour of quadratic curves draws what the points of the file say, if and only if it does not end with an off-curve
point, or with one that is half-way to the start itself. -/
def DrawsQuadraticExactly (conic : ConicToQuads) (mid : IOF → IOF → IOF) (gc : List GlifPoint) (c : Contour PD) : Prop :=
  ∀ g l, gc = g :: l → g.ptype = .qcurve → (∀ x ∈ l, x.ptype = .qcurve ∨ x.ptype = .offcurve) →
    (DrawsJust conic c True (quadStrokes mid (placeInFile g) (placeInFile g) none l) ↔
      ∀ z ∈ l.getLast?, z.ptype = .offcurve →
        ((mid z.x (IOF.ofF32 g.x.toF32)).toF32, (mid z.y (IOF.ofF32 g.y.toF32)).toF32) = placeInFile z)

end GP.Spec
