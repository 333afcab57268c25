import Verif.Spec.Chain
import Verif.Spec.SkiaDraw
/-!
# What a path draws when it is moved (C114)
-/
open Fl
namespace GP.Spec
variable {PD D : Type}

/-- An element of a path with all its points moved. -/
def movedEl (F : SkPoint → SkPoint) : SkEl → SkEl
  | .move p => .move (F p)
  | .line p => .line (F p)
  | .quad c p => .quad (F c) (F p)
  | .conic c p w => .conic (F c) (F p) w
  | .cubic a b p => .cubic (F a) (F b) (F p)
  | .close => .close

/-- The open and the closed part of the path of an outline. -/
def pathParts (o : Outline PD) : List SkEl × List SkEl := ((toSkiaPaths id id o).1.getD [], (toSkiaPaths id id o).2.getD [])

/-- The control points of a piece. -/
def Stroke.points : Stroke → List SkPoint
  | .line a b => [a, b]
  | .quad a b c => [a, b, c]
  | .cubic a b c d => [a, b, c, d]

/-- Where a piece is at the parameter `t`, exactly. -/
def Stroke.atParam (t : ℚ) : Stroke → ℚ × ℚ
  | .line a b => ((1 - t) * a.1.toRat + t * b.1.toRat, (1 - t) * a.2.toRat + t * b.2.toRat)
  | .quad a b c => (bezier2 a.1.toRat b.1.toRat c.1.toRat t, bezier2 a.2.toRat b.2.toRat c.2.toRat t)
  | .cubic a b c d => (bezier3 a.1.toRat b.1.toRat c.1.toRat d.1.toRat t, bezier3 a.2.toRat b.2.toRat c.2.toRat d.2.toRat t)

/-- The second piece runs, at every parameter, within `r` of where the chain of maps puts the first. -/
structure StrokeLands (As : List Affine) (r : ℚ) (s s' : Stroke) : Prop where
  kind : s'.points.length = s.points.length
  finite : ∀ p ∈ s'.points, p.1.isFinite = true ∧ p.2.isFinite = true
  near : ∀ t, 0 ≤ t → t ≤ 1 → |(s'.atParam t).1 - (exactChain As (s.atParam t)).1| ≤ r ∧
    |(s'.atParam t).2 - (exactChain As (s.atParam t)).2| ≤ r

/-- What a contour of a path draws, with the line that closes it even if that goes nowhere. -/
def SkContour.allStrokes (conic : ConicToQuads) (c : SkContour) : List Stroke :=
  strokesFrom conic c.start c.segs ++ if c.closed then [.line c.stop c.start] else []

/-- The path of the second contour draws what that of the first does, moved through the chain. -/
def ContourDraws (conic : ConicToQuads) (As : List Affine) (r : ℚ) (c c' : Contour PD) : Prop :=
  toSkiaPath id id c = none ∧ toSkiaPath id id c' = none ∨
  ∃ k k' : SkContour, toSkiaPath id id c = some k.els ∧ toSkiaPath id id c' = some k'.els ∧ k'.closed = k.closed ∧
    List.Forall₂ (StrokeLands As r) (k.allStrokes conic) (k'.allStrokes conic)

/-- The contours of an outline draw what those of the node do, moved by its own matrix and then by those of its
ancestors; within the error that `r` allows for so many matrices, if all their points stay small on their way. -/
def NodeDraws (conic : ConicToQuads) (B : ℚ) (r : ℕ → ℚ) (n : List Affine × Component PD D) (o : Outline PD) : Prop :=
  List.Forall₂ (fun c c' => (∀ p ∈ c, TamePoint B (n.2.matrix :: n.1) p) →
    ContourDraws conic (n.2.matrix :: n.1) (r (n.1.length + 1)) c c') (n.2.glif.outline.getD []) o

end GP.Spec
