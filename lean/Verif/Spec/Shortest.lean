import Verif.Spec.Format
import Verif.Float.Error
/-!
# How numbers are written, for C98

The text of a float is the shortest one that is read as this float again; of several of that length the one
nearest to the float.  Written from the documentation of `Display` for `f32` and `f64`.
-/
open Fl
namespace GP.Spec

/-- `y` can be written with at most `n` digits, zeros at either end not counted. -/
def HasDigits (n : Nat) (y : ℚ) : Prop := ∃ (m : Nat) (x : Int), m < 10 ^ n ∧ y = m * (10 : ℚ) ^ x

/-- The magnitude of ordinal `k`. -/
def magnitude (f : Fmt) (k : Nat) : ℚ := (f.val k : ℚ) / 2 ^ f.u

/-- `y` is read as the float of ordinal `k`: this is the nearest one, the even one if there are two. -/
structure ReadsAs (f : Fmt) (k : Nat) (y : ℚ) : Prop where
  near : ∀ j, j ≤ f.inf → |y - magnitude f k| ≤ |y - magnitude f j|
  even : ∀ j, j ≤ f.inf → j ≠ k → |y - magnitude f k| = |y - magnitude f j| → k % 2 = 0

/-- `y` has no more digits than `w`. -/
def NoLonger (y w : ℚ) : Prop := ∀ n, HasDigits n w → HasDigits n y

/-- `w` is read as the float of ordinal `k`, has no more digits than any other such number, and is the nearest
one to the float among those with as few digits, the larger one if there are two. -/
structure Shortest (f : Fmt) (k : Nat) (w : ℚ) : Prop where
  reads : ReadsAs f k w
  short : ∀ y, 0 ≤ y → ReadsAs f k y → NoLonger w y
  near : ∀ y, 0 ≤ y → ReadsAs f k y → NoLonger y w → |w - magnitude f k| ≤ |y - magnitude f k|
  tie : ∀ y, 0 ≤ y → ReadsAs f k y → NoLonger y w → |w - magnitude f k| = |y - magnitude f k| → y ≤ w

/-- The usual text of a number: no zero too many in front, none behind the digits after the point, and no point
without digits after it. -/
def Usual (s : Str) (w : ℚ) : Prop :=
  ∃ a b m, a ≠ [] ∧ (a.head? = some '0' → a = ['0']) ∧ b.getLast? ≠ some '0' ∧ s = (if b = [] then a else a ++ '.' :: b) ∧
    Numeral 10 (a ++ b) m ∧ w = (m : ℚ) / 10 ^ b.length

/-- A number in usual text, maybe with a minus sign. -/
def UsualText (s : Str) (neg : Bool) (w : ℚ) : Prop :=
  ∃ body, ((s = '-' :: body ∧ neg = true) ∨ (s = body ∧ neg = false)) ∧ Usual body w

/-- The text of a number that single precision can keep: 0; a whole number below 2^24; or a number of at most six
digits, not so small or large that it is beyond the normal floats. -/
def Keepable (s : Str) : Prop :=
  ∃ neg w, UsualText s neg w ∧
    ((w = 0 ∧ neg = false) ∨ (∃ n : Nat, 0 < n ∧ n < 2 ^ 24 ∧ w = n) ∨ (HasDigits 6 w ∧ 1 / 2 ^ 126 ≤ w ∧ w ≤ 2 ^ 127))

/-- The attributes that are texts of numbers that can be kept are kept letter for letter. -/
def KeepsTexts (ks : List String) (e e' : Element) : Prop := ∀ k ∈ ks, ∀ s, e.get k = some s → Keepable s → e'.get k = some s

open Classical in
/-- A document read and written again keeps the numbers of its elements letter for letter, and the places of points,
unless a contour is quadratic: there points may be put in between. -/
structure KeepsNumbers (root root' : Element) : Prop where
  anchors : List.Forall₂ (KeepsTexts ["x", "y"]) (named "anchor" root.children) (named "anchor" root'.children)
  guidelines : List.Forall₂ (KeepsTexts ["x", "y", "angle"]) (named "guideline" root.children) (named "guideline" root'.children)
  images : List.Forall₂ (KeepsTexts matrixAttrs) (named "image" root.children) (named "image" root'.children)
  components : List.Forall₂ (KeepsTexts matrixAttrs) (componentsOf root) (componentsOf root')
  points : List.Forall₂ (fun el el' => (∀ e, (named "point" el.children).head? = some e → ¬ OfType e "qcurve") →
      ∀ e' ∈ named "point" el'.children, ∃ e ∈ named "point" el.children, KeepsTexts ["x", "y"] e e')
    ((contoursOf root).filter fun el => ¬ Dropped el) (contoursOf root')

end GP.Spec
