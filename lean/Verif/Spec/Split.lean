import Verif.Spec.PenOps
/-!
# Contours of pen operations
-/
namespace GP.Spec

def isMoveOp : PenOp → Bool
  | .moveTo _ => true
  | _ => false

/-- The operations cut before every `MoveTo`. -/
def cutAtMoves : List PenOp → List (List PenOp)
  | [] => []
  | o :: l =>
    match cutAtMoves l with
    | [] => [[o]]
    | k :: ks => if k.head?.any isMoveOp then [o] :: k :: ks else (o :: k) :: ks

/-- A contour that is closed: without `Close`, and with a curve that goes nowhere in place of its `MoveTo`. -/
def closedUp (k : List PenOp) : List PenOp :=
  if .close ∈ k then
    match k with
    | .moveTo m :: l => .curveTo m m m :: l.filter (· ≠ .close)
    | k => k
  else k

/-- The number of `MoveTo`s, and one more if the operations begin without. -/
def contourCount (ops : List PenOp) : Nat :=
  (ops.filter isMoveOp).length + if ops.head?.any isMoveOp then 0 else 1

end GP.Spec
