import Verif.Spec.SkiaDraw
import Verif.Spec.Resave
/-!
# What the points of a file draw
-/
open Fl
namespace GP.Spec
variable {PD : Type}

/-- A segment of a contour in a file: the on-curve point it begins at, its off-curve points, and the on-curve
point it ends at. -/
abbrev FilePiece := GlifPoint × List GlifPoint × GlifPoint

/-- The segments behind an on-curve point. -/
def filePieces : GlifPoint → List (List GlifPoint × GlifPoint) → List FilePiece
  | _, [] => []
  | g, (offs, g') :: gs => (g, offs, g') :: filePieces g' gs

/-- The on-curve point that is last. -/
def lastOn : GlifPoint → List (List GlifPoint × GlifPoint) → GlifPoint
  | g, [] => g
  | _, (_, g') :: gs => lastOn g' gs

/-- The segment that closes a contour: there is none in an open contour, which begins with a `move`, and none if a
line would go nowhere. -/
def closingPiece (g : GlifPoint) (gs : List (List GlifPoint × GlifPoint)) (back : List GlifPoint) : List FilePiece :=
  if g.ptype = .move then [] else if g.ptype = .line ∧ sameOrNaN (placeInFile (lastOn g gs)) (placeInFile g) then [] else [(lastOn g gs, back, g)]

/-- What a segment draws, by the UFO description of `<point>`: a line, or a curve of the degree given by the number of
off-curve points, straight if there are none.  (More than two are not allowed.) -/
def FilePiece.stroke : FilePiece → Stroke
  | (s, offs, e) =>
    if e.ptype = .curve then
      match offs with
      | [] => .line (placeInFile s) (placeInFile e)
      | [h] => .quad (placeInFile s) (placeInFile h) (placeInFile e)
      | h :: k :: _ => .cubic (placeInFile s) (placeInFile h) (placeInFile k) (placeInFile e)
    else .line (placeInFile s) (placeInFile e)

/-- What a contour of a file draws that begins with the on-curve point `g`. -/
def fileStrokes (g : GlifPoint) (gs : List (List GlifPoint × GlifPoint)) (back : List GlifPoint) : List Stroke :=
  (filePieces g gs ++ closingPiece g gs back).map FilePiece.stroke

/-- A curve with one off-curve point. -/
def FilePiece.quadratic (x : FilePiece) (h : GlifPoint) : Prop := x.2.2.ptype = .curve ∧ x.2.1 = [h]

/-- A piece without negative zeros. -/
def Stroke.unsigned : Stroke → Stroke
  | .line a b => .line (f a) (f b)
  | .quad a b c => .quad (f a) (f b) (f c)
  | .cubic a b c d => .cubic (f a) (f b) (f c) (f d)
where f (z : SkPoint) : SkPoint := (z.1.normZero, z.2.normZero)

/-- Only the first point is a `move`. -/
def MoveFirst (c : Contour PD) : Prop := ∀ p ∈ c.tail, p.ptype ≠ .move

end GP.Spec
