import Verif.Model.Point
/-!
# What should be written for, and read back from, a contour

Written from the UFO description of `<contour>` (an on-curve point is preceded by its off-curve
points), not from the code.
-/
open Fl
namespace GP.Spec
variable {PD : Type}

/-- `l'` is `l` with its start moved. -/
def Rotated {α : Type} (l l' : List α) : Prop := ∃ s t, l = s ++ t ∧ l' = t ++ s

/-- Every element with its cyclic predecessor. -/
def cyclicPairs {α : Type} (l : List α) : List (α × α) :=
  match l.getLast? with
  | some z => (z :: l).zip l
  | none => []

/-- Position of an outgoing (A) handle: that of the point itself if there is no handle. -/
def outPos (p : Point PD) : F32 × F32 :=
  match p.a with
  | .at x y => (x, y)
  | .colocated => (p.x, p.y)

/-- Position of an incoming (B) handle. -/
def inPos (p : Point PD) : F32 × F32 :=
  match p.b with
  | .at x y => (x, y)
  | .colocated => (p.x, p.y)

/-- An off-curve file point at a position. -/
def off (xy : F32 × F32) : GlifPoint :=
  { x := .float xy.1, y := .float xy.2, smooth := false, name := none, ptype := .offcurve }

/-- The on-curve file point of a point. -/
def on (p : Point PD) : GlifPoint :=
  { x := .float p.x, y := .float p.y, smooth := p.smooth, name := p.name, ptype := p.ptype }

/-- Off-curve points written in front of on-curve point `p` whose predecessor is `q`. -/
def offsBefore (q p : Point PD) : List GlifPoint :=
  match p.ptype with
  | .curve => [off (outPos q), off (inPos p)]
  | .qcurve => [off (inPos p)]
  | _ => []

/-- What is written for `p` with predecessor `q`: nothing for an off-curve point. -/
def written (q p : Point PD) : List GlifPoint :=
  if p.ptype = .offcurve then [] else offsBefore q p ++ [on p]

/-- All file points of a contour, starting in front of its first point. -/
def fileCycle (c : Contour PD) : List GlifPoint := (cyclicPairs c).flatMap fun (q, p) => written q p

/-- A point type that can be written. -/
def Writable (t : PointType) : Prop := t = .move ∨ t = .line ∨ t = .curve ∨ t = .qcurve ∨ t = .offcurve

/-- A contour of lines and cubic curves. -/
def Cubic (c : Contour PD) : Prop := ∀ p ∈ c, p.ptype = .move ∨ p.ptype = .line ∨ p.ptype = .curve

/-- What a file can say about a cubic point `p` followed by `n`: handles exist exactly at curve
segments, and then explicitly; point data is not stored. -/
def kept (p n : Point PD) : Point PD :=
  { x := p.x, y := p.y, name := p.name, ptype := p.ptype, smooth := p.smooth, data := none
    a := if n.ptype = .curve then .at (outPos p).1 (outPos p).2 else .colocated
    b := if p.ptype = .curve then .at (inPos p).1 (inPos p).2 else .colocated }

/-- What a file can say about a contour. -/
def keptContour (c : Contour PD) : Contour PD :=
  match c with
  | [] => []
  | p :: rest => List.zipWith kept (p :: rest) (rest ++ [p])

/-- Start one point earlier. -/
def startEarlier {α : Type} (c : List α) : List α :=
  match c.getLast? with
  | some z => z :: c.dropLast
  | none => []

/-- The contour as stored in a file: it has to start with an on-curve point that needs no off-curve
points in front of it, or else its start moves back by one. -/
def stored (c : Contour PD) : Contour PD :=
  match c with
  | p :: _ => if p.ptype = .curve then startEarlier (keptContour c) else keptContour c
  | [] => []

/-- The control positions of the segment from `q` to `p`: of interest when `p` is a curve point. -/
def segment (x : Point PD × Point PD) : (F32 × F32) × (F32 × F32) × (F32 × F32) × (F32 × F32) :=
  ((x.1.x, x.1.y), outPos x.1, inPos x.2, (x.2.x, x.2.y))

/-- The control polygons of the curve segments of a contour, in order. -/
def curveSegments (c : Contour PD) : List ((F32 × F32) × (F32 × F32) × (F32 × F32) × (F32 × F32)) :=
  ((cyclicPairs c).filter fun x => x.2.ptype == .curve).map segment

/-- `l` starting `k` places earlier, for `k ≤ l.length`. -/
def startedBack {α : Type} (k : Nat) (l : List α) : List α := l.drop (l.length - k) ++ l.take (l.length - k)

/-- All points are curve points (so the contour is closed). -/
def AllCurve (c : Contour PD) : Prop := ∀ p ∈ c, p.ptype = .curve

end GP.Spec
