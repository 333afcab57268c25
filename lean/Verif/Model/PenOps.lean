import Verif.Model.Outline
/-!
# Pen operations and kurbo paths (src/outline/conv/penops.rs, src/outline/kurbo.rs)
-/
open Fl
namespace GP
variable {PD : Type}

/-- src/outline/conv/penops.rs 12-19 -/
inductive PenOp where
  | moveTo (p : GlifPoint)
  | lineTo (p : GlifPoint)
  | quadTo (c p : GlifPoint)
  | curveTo (c1 c2 p : GlifPoint)
  | close
  deriving DecidableEq, Repr

namespace PenOp

/-- src/outline/conv/penops.rs 24-32 -/
def len : PenOp → Nat
  | moveTo _ => 1
  | lineTo _ => 1
  | quadTo .. => 2
  | curveTo .. => 3
  | close => 0

/-- src/outline/conv/penops.rs 34-40.  `==` on `IntegerOrFloat` is the crate's; it is a parameter. -/
def simplify (eq : IOF → IOF → Bool) : PenOp → PenOp
  | curveTo pa pb p =>
    if eq p.x pa.x && eq p.y pa.y && eq p.x pb.x && eq p.y pb.y then lineTo p else curveTo pa pb p
  | o => o

/-- src/outline/conv/penops.rs 50-72 -/
def isValid : PenOp → Bool
  | moveTo gp => decide (gp.ptype = .move) && gp.isValid
  | lineTo gp => decide (gp.ptype = .line) && gp.isValid
  | quadTo gpb gp => decide (gp.ptype ≠ .offcurve) && gp.isValid && decide (gpb.ptype = .offcurve) && gpb.isValid
  | curveTo gpb gp2a gp =>
    decide (gp.ptype ≠ .offcurve) && gp.isValid && decide (gpb.ptype = .offcurve) && gpb.isValid &&
      decide (gp2a.ptype = .offcurve) && gp2a.isValid
  | close => true

/-- src/outline/conv/penops.rs 74-84 -/
def points : PenOp → List GlifPoint
  | moveTo gp => [gp]
  | lineTo gp => [gp]
  | quadTo gpb gp => [gpb, gp]
  | curveTo gpb gp2a gp => [gpb, gp2a, gp]
  | close => []

/-- src/outline/kurbo.rs 36-46 -/
def ptype : PenOp → PointType
  | moveTo _ => .move
  | lineTo _ => .line
  | quadTo .. => .qcurve
  | curveTo .. => .curve
  | close => .qclose

end PenOp

/-! ## Contours to pen operations -/

/-- One iteration of the loop src/outline/conv/penops.rs 101-131: point number `pi` of the refigured
contour `c`, operations so far. -/
def penStep (c : Contour PD) (ops : List PenOp) (pi : Nat) (point : Point PD) : R (List PenOp) :=
  match point.ptype with
  | .move => .ok (ops ++ [.moveTo (.ofPoint point)])
  | .line =>
    if pi = 1 then
      -- `pop().unwrap()`
      if ops.isEmpty then .panic else .ok (ops.dropLast ++ [.lineTo (.ofPoint point)])
    else .ok (ops ++ [.lineTo (.ofPoint point)])
  | .qcurve => .ok (ops ++ [.quadTo (.fromHandle point .A) (.ofPoint point)])
  | .curve =>
    match contourPrevNext c pi with
    | .ok (_, some next) => do
      let q ← Out.unwrap c[next]?
      .ok (ops ++ [.curveTo (.fromHandle point .A) (.fromHandle q .B) (.ofPoint q)])
    | .ok (some prev, none) => do
      let q ← Out.unwrap c[prev]?
      .ok (ops ++ [.curveTo (.fromHandle q .A) (.fromHandle point .B) (.ofPoint point)])
    | _ => .panic
  | ptype => .err (.contourHasBadPointType pi ptype)

/-- The loop src/outline/conv/penops.rs 101-131 from point number `pi` on. -/
def penLoop (c : Contour PD) : List PenOp → Nat → List (Point PD) → R (List PenOp)
  | ops, _, [] => .ok ops
  | ops, pi, p :: rest => do
    let ops ← penStep c ops pi p
    penLoop c ops (pi + 1) rest

/-- src/outline/conv/penops.rs 134-140 -/
def closeLast (first : Point PD) (ops : List PenOp) : R (List PenOp) :=
  match ops.getLast? with
  | none => .panic
  | some (.curveTo p1 p2 _) => .ok (ops.dropLast ++ [.curveTo p1 p2 (.ofPoint first)])
  | some _ => .ok ops

/-- src/outline/conv/penops.rs 90-146: the operations (the refigured contour is left behind in
`self`). -/
def intoPenOperations (c0 : Contour PD) : R (List PenOp) := do
  let closed := isClosed c0
  let c := refigure c0
  if closed then
    let first ← Out.unwrap c.head?
    let ops ← penLoop c [.moveTo (.ofPoint first)] 0 c
    let last ← Out.unwrap c.getLast?
    let ops ← if last.ptype = .curve ∧ first.ptype = .curve then closeLast first ops else .ok ops
    .ok (ops ++ [.close])
  else
    penLoop c [] 0 c

/-! ## Pen operations to contours -/

/-- The loop src/outline/conv/penops.rs 178-193.  State: `koutline`, `kcontour`. -/
def splitLoop : List (List PenOp) → List PenOp → List PenOp → R (List (List PenOp) × List PenOp)
  | ko, kc, [] => .ok (ko, kc)
  | ko, kc, p :: rest =>
    match p with
    | .moveTo _ => splitLoop (if kc.isEmpty then ko else ko ++ [kc]) [p] rest
    | .close =>
      match kc with
      | .moveTo rm :: kc' => splitLoop ko (.curveTo rm rm rm :: kc') rest
      -- `remove(0)` of an empty list, or `unwrap_move_to` of something else
      | _ => .panic
    | _ => splitLoop ko (kc ++ [p]) rest

/-- src/outline/conv/penops.rs 167-201 -/
def splitPenOperations (ops : List PenOp) : R (List (List PenOp)) :=
  if ops.length ≤ 1 then .ok [[]] else do
  let (ko, kc) ← splitLoop [] [] ops
  .ok (if kc.isEmpty then ko else ko ++ [kc])

/-- src/outline/conv/penops.rs 156-158 -/
def hasNContours (ops : List PenOp) (n : Nat) : R Bool := do
  let ks ← splitPenOperations ops
  .ok (decide (ks.length = n))

/-- src/outline/conv/penops.rs 161-165 -/
def penOpsValid (ops : List PenOp) : R Bool := hasNContours ops 1

/-- src/outline/conv/penops.rs 212-256 for one element: `next` are the points of the next element. -/
def penPoint (el : PenOp) (next : List GlifPoint) : R (List (Point PD)) :=
  match el.points with
  | [] => .ok []
  | p0 :: ps =>
    let point : Point PD := { x := p0.x.toF32, y := p0.y.toF32, ptype := el.ptype }
    match el.ptype with
    | .move => .ok [point]
    | .curve =>
      let a := match next with
        | [_, _, q] => Handle.at q.x.toF32 q.y.toF32
        | _ => .colocated
      let b := match ps with
        | q :: _ => Handle.at q.x.toF32 q.y.toF32
        | [] => .colocated
      .ok [{ point with a := a, b := b }]
    | .line =>
      match next with
      | [_, _, q] => .ok [{ point with ptype := .curve, a := .at q.x.toF32 q.y.toF32 }]
      | _ => .ok [point]
    | _ => .panic

/-- The loop src/outline/conv/penops.rs 211-257; `first` is `skc[0]`, the element taken as the next of
the last one. -/
def penPoints (first : PenOp) : List PenOp → R (Contour PD)
  | [] => .ok []
  | [el] => penPoint el first.points
  | el :: el' :: rest => do
    let p ← penPoint el el'.points
    let ps ← penPoints first (el' :: rest)
    .ok (p ++ ps)

/-- src/outline/conv/penops.rs 259-267: a last point on top of the first one is merged into it. -/
def mergeEnds (c : Contour PD) : Contour PD :=
  match c with
  | first :: q :: rest =>
    match (q :: rest).getLast? with
    | some last =>
      if last.x.feq first.x && last.y.feq first.y then { first with b := last.b } :: (q :: rest).dropLast else c
    | none => c
  | _ => c

/-- src/outline/conv/penops.rs 207-268, for one contour -/
def penContour (skc : List PenOp) : R (Contour PD) :=
  match skc with
  | [] => .ok []
  | first :: _ => do
    let c ← penPoints first skc
    .ok (mergeEnds c)

/-- src/outline/conv/penops.rs 203-273 -/
def penOutline (ks : List (List PenOp)) : R (Outline PD) := Out.mapM' penContour ks

/-! ## kurbo -/

/-- `kurbo::PathEl`, with `kurbo::Point`s as pairs of `f64`s. -/
inductive PathEl where
  | moveTo (p : F64 × F64)
  | lineTo (p : F64 × F64)
  | quadTo (c p : F64 × F64)
  | curveTo (c1 c2 p : F64 × F64)
  | closePath
  deriving DecidableEq, Repr

/-- src/point/valid.rs 21-25 for `GlifPoint` (99-112) -/
def GlifPoint.kpoint (p : GlifPoint) : F64 × F64 := (p.x.toF64, p.y.toF64)

/-- src/outline/kurbo.rs 48-60 -/
def PenOp.pathEl : PenOp → PathEl
  | .moveTo gp => .moveTo gp.kpoint
  | .lineTo gp => .lineTo gp.kpoint
  | .quadTo gpa gp => .quadTo gpa.kpoint gp.kpoint
  | .curveTo gpa gp2b gp => .curveTo gpa.kpoint gp2b.kpoint gp.kpoint
  | .close => .closePath

/-- `GlifPoint::from_x_y_type((p.x as f32, p.y as f32), t)` -/
def GlifPoint.ofKurbo (p : F64 × F64) (t : PointType) : GlifPoint := .fromXYType p.1.to32 p.2.to32 t

/-- src/outline/kurbo.rs 62-85.  Note that the control points and the end point change places. -/
def PathEl.penOp : PathEl → PenOp
  | .moveTo gp => .moveTo (.ofKurbo gp .move)
  | .lineTo gp => .lineTo (.ofKurbo gp .line)
  | .quadTo gpa gp => .quadTo (.ofKurbo gp .offcurve) (.ofKurbo gpa .qcurve)
  | .curveTo gpa gp2b gp => .curveTo (.ofKurbo gp .offcurve) (.ofKurbo gp2b .offcurve) (.ofKurbo gpa .curve)
  | .closePath => .close

/-- src/outline/kurbo.rs 112-122 -/
def contourIntoKurbo (c : Contour PD) : R (List PathEl) := do
  let ops ← intoPenOperations c
  .ok (ops.map PenOp.pathEl)

/-- src/outline/kurbo.rs 97-109: contours that cannot be converted are left out.  (A panic is not
caught.)  `BezPath::from_vec` at 90-92 only wraps the list; its check that a path starts with a
`MoveTo` is a debug assertion. -/
def outlineIntoKurbo : Outline PD → R (List PathEl)
  | [] => .ok []
  | c :: o =>
    match contourIntoKurbo c with
    | .panic => .panic
    | .err _ => outlineIntoKurbo o
    | .ok els => do
      let rest ← outlineIntoKurbo o
      .ok (els ++ rest)

/-- src/outline/kurbo.rs 149-155 -/
def outlineFromKurbo (path : List PathEl) : R (Outline PD) := do
  let ks ← splitPenOperations (path.map PathEl.penOp)
  penOutline ks

end GP
