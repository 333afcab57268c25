import Verif.Float.Error
import Verif.Model.Point
/-!
# Distance to a segment, in exact arithmetic (C105)
-/
open Fl
namespace GP.Spec
variable {PD : Type}

/-- The square of the distance of two points. -/
def distSq (p q : ℚ × ℚ) : ℚ := (p.1 - q.1) ^ 2 + (p.2 - q.2) ^ 2

/-- The point at the fraction `s` of the way from `a` to `b`. -/
def along (a b : ℚ × ℚ) (s : ℚ) : ℚ × ℚ := (a.1 + s * (b.1 - a.1), a.2 + s * (b.2 - a.2))

/-- `p` is at most `r` away from some point of the segment from `a` to `b`. -/
def NearSegment (r : ℚ) (p a b : ℚ × ℚ) : Prop := 0 ≤ r ∧ ∃ s, 0 ≤ s ∧ s ≤ 1 ∧ distSq p (along a b s) ≤ r ^ 2

/-- How far the test may be off, if no coordinate is larger than `m` and the tolerance is `w`. -/
def slack (m w : ℚ) : ℚ := (m + w) / 2 ^ 42 + 1 / 2 ^ 80

/-- A point with finite coordinates of size at most `m`. -/
def SizeAtMost (m : ℚ) (x y : F32) : Prop := x.isFinite = true ∧ y.isFinite = true ∧ |x.toRat| ≤ m ∧ |y.toRat| ≤ m

/-- The exact place of a point. -/
def spot (x y : F32) : ℚ × ℚ := (x.toRat, y.toRat)

/-- The two handles point `i` of a contour is judged by: its own ones, but at the ends of a closed contour the last
point's `b` and the first point's `a`. -/
inductive JudgedBy (c : List (Point PD)) : Nat → Point PD → Handle → Handle → Prop
  | inner (i p) (h0 : 0 < i) (h : i + 1 < c.length) (hp : c[i]? = some p) : JudgedBy c i p p.a p.b
  | first (p q) (h : 2 ≤ c.length) (hm : p.ptype ≠ .move) (hp : c[0]? = some p) (hq : c[c.length - 1]? = some q) :
    JudgedBy c 0 p p.a q.b
  | last (p q) (h : 2 ≤ c.length) (hm : p.ptype ≠ .move) (hp : c[0]? = some p) (hq : c[c.length - 1]? = some q) :
    JudgedBy c (c.length - 1) q p.a q.b

end GP.Spec
