import Verif.Model.Point
/-!
# Contour index helpers and smoothness (src/outline/contour.rs)
-/
open Fl
namespace GP
variable {PD : Type} {T : Type}

/-- src/outline/contour.rs 13-17 -/
inductive End where
  | head | tail
  deriving DecidableEq, Repr

/-- src/outline/contour.rs 68-77 -/
def idxSane (l : List T) (idx : Nat) : R Unit :=
  if idx ≥ l.length then .err (.pointIdxOutOfBounds idx l.length)
  else if l.length = 1 then .err .contourLenOne
  else if l.length = 0 then .err .contourLenZero
  else .ok ()

/-- src/outline/contour.rs 79-87 -/
def prevNext (l : List T) (idx : Nat) : R (Nat × Nat) := do
  idxSane l idx
  let prev := if idx = 0 then l.length - 1 else idx - 1
  let next := if idx = l.length - 1 then 0 else idx + 1
  .ok (prev, next)

/-- src/outline/contour.rs 89-98 -/
def idxWhichEnd (l : List T) (idx : Nat) : R (Option End) := do
  idxSane l idx
  .ok (if idx = 0 then some .head else if idx = l.length - 1 then some .tail else none)

/-- src/outline/contour.rs 30-33 -/
def prev (l : List T) (idx : Nat) : R Nat := do
  let (p, _) ← prevNext l idx
  .ok p

/-- src/outline/contour.rs 34-37 -/
def next (l : List T) (idx : Nat) : R Nat := do
  let (_, n) ← prevNext l idx
  .ok n

/-- src/outline/contour.rs 39-42 -/
def idxAtStartOrEnd (l : List T) (idx : Nat) : R Bool := do
  let e ← idxWhichEnd l idx
  .ok e.isSome

/-- src/outline/contour.rs 109-116 -/
def isOpen (c : Contour PD) : Bool :=
  match c with
  | [] => true
  | [_] => true
  | p :: _ => p.ptype == .move

/-- src/outline/contour.rs 104-106 -/
def isClosed (c : Contour PD) : Bool := !isOpen c

/-- src/outline/contour.rs 121-134 -/
def contourPrevNext (c : Contour PD) (idx : Nat) : R (Option Nat × Option Nat) := do
  let (p, n) ← prevNext c idx
  let atEnd ← if isOpen c then idxAtStartOrEnd c idx else .ok false
  if atEnd then
    let e ← idxWhichEnd c idx
    match ← Out.unwrap e with
    | .head => .ok (none, some n)
    | .tail => .ok (some p, none)
  else
    let p' ← prev c idx
    let n' ← next c idx
    .ok (some p', some n')

/-- Handles of the point at an optional index (src/outline/contour.rs 140-145).  Indexing
`self[idx]` out of range would panic. -/
def handlesAt (c : Contour PD) : Option Nat → R (Handle × Handle)
  | none => .ok (.colocated, .colocated)
  | some i => do
    let p ← Out.unwrap c[i]?
    .ok (p.a, p.b)

/-- src/outline/contour.rs 135-147 -/
def contourPrevNextHandles (c : Contour PD) (idx : Nat) :
    R ((Handle × Handle) × (Handle × Handle)) := do
  let (p, n) ← contourPrevNext c idx
  let ph ← handlesAt c p
  let nh ← handlesAt c n
  .ok (ph, nh)

/-- Distance test of `is_point_smooth_within` (src/outline/contour.rs 182-196): is the distance of
the point to the segment between the two handles at most `within`?  `kurbo::Line::nearest` is not
in `/repo`, so this is a parameter: point, first handle, second handle, tolerance. -/
abbrev SmoothTest := (F64 × F64) → (F64 × F64) → (F64 × F64) → F64 → Bool

/-- src/outline/contour.rs 160-197 -/
def isPointSmoothWithin (near : SmoothTest) (c : Contour PD) (idx : Nat) (within : F32) : R Bool := do
  let e ← idxWhichEnd c idx
  let (prev, next) ← contourPrevNext c idx
  let p ← Out.unwrap c[idx]?
  let ab : Option (Handle × Handle) ← match e with
    | none => .ok (some (p.a, p.b))
    | some .head =>
      match prev with
      | some pr => do
        let q ← Out.unwrap c[pr]?
        .ok (some (p.a, q.b))
      | none => .ok none
    | some .tail =>
      match next with
      | some nx => do
        let q ← Out.unwrap c[nx]?
        .ok (some (q.a, p.b))
      | none => .ok none
  match ab with
  | none => .ok false
  | some (.at x1 y1, .at x2 y2) =>
    .ok (near (F32.to64 p.x, F32.to64 p.y) (F32.to64 x1, F32.to64 y1) (F32.to64 x2, F32.to64 y2)
      (F32.to64 within))
  | some _ => .ok false

/-- src/outline/contour.rs 153-155: the default tolerance `0.01` -/
def defaultTolerance : F32 := Flt.ofFrac b32 false 1 100

/-- src/outline/contour.rs 199-203.  Result and the new contour. -/
def checkSmooth (near : SmoothTest) (c : Contour PD) (idx : Nat) : R (Bool × Contour PD) := do
  let s ← isPointSmoothWithin near c idx defaultTolerance
  .ok (s, c.modify idx fun p => { p with smooth := s })

end GP
