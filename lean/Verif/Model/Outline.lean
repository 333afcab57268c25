import Verif.Model.Contour
/-!
# Contours: reversal, refiguring, rounding, creation from and conversion to file points

src/outline/contour/reverse.rs, src/outline/reverse.rs, src/outline/refigure.rs,
src/outline/create.rs, src/outline/conv.rs
-/
open Fl
namespace GP
variable {PD : Type}

/-! ## Reversal -/

/-- The loop body src/outline/contour/reverse.rs 33-41: swap the handles. -/
def Point.swapHandles (p : Point PD) : Point PD := { p with a := p.b, b := p.a }

/-- The two-way match at src/outline/contour/reverse.rs 48-51 and 53-56 -/
def typeOfHandles (a b : Handle) : PointType :=
  match a, b with
  | .at .., _ => .curve
  | _, .at .. => .curve
  | .colocated, .colocated => .line

/-- src/outline/contour/reverse.rs 17-67.  `self.first().unwrap()` panics on the empty contour.
The `debug_assert!`s at 62-63 are off in a release build. -/
def toReversed (c : Contour PD) : R (Contour PD) :=
  match c with
  | [] => .panic
  | p0 :: rest =>
    let openContour := p0.ptype == .move && decide (1 < c.length)
    let order := if !openContour then p0 :: rest.reverse else c.reverse
    let newC := order.map Point.swapHandles
    let n := newC.length
    if openContour then
      let newC := newC.modify 0 fun p => { p with ptype := .move }
      if n ≥ 3 then
        match newC[n - 2]?, newC[n - 1]? with
        | some q, some r => .ok (newC.modify (n - 1) fun p => { p with ptype := typeOfHandles q.a r.b })
        | _, _ => .panic
      else if n = 2 then
        match newC[0]?, newC[1]? with
        | some q, some r => .ok (newC.modify (n - 1) fun p => { p with ptype := typeOfHandles q.a r.b })
        | _, _ => .panic
      else .ok newC
    else .ok newC

/-- src/outline/reverse.rs 5-16 -/
def outlineToReversed (o : Outline PD) : R (Outline PD) := Out.mapM' toReversed o

/-! ## Refiguring point types -/

/-- src/outline/refigure.rs 48-74.  `contour_prev_next_handles` never panics
(`Props/Index.lean`, C32), so its only non-`ok` outcome is an error. -/
def pointTypeForIdx (c : Contour PD) (idx : Nat) : PointType :=
  let openContour := isOpen c
  match c[idx]?, contourPrevNextHandles c idx with
  | some point, .ok ((prevA, _), (_, nextB)) =>
    if !openContour || idx ≠ 0 then
      match prevA, point.b with
      | .at .., .colocated => .curve
      | .colocated, .at .. => .curve
      | .at .., .at .. => .curve
      | .colocated, .colocated => .line
    else if !openContour && idx = 0 then
      match point.a, nextB with
      | .at .., .colocated => .curve
      | .colocated, .at .. => .curve
      | .at .., .at .. => .curve
      | .colocated, .colocated => .line
    else .move
  | _, _ => default

/-- src/outline/refigure.rs 28-37: one handle against its point, with IEEE equality. -/
def Handle.knock (h : Handle) (x y : F32) : Handle :=
  match h with
  | .at hx hy => if hx.feq x && hy.feq y then .colocated else h
  | .colocated => .colocated

/-- src/outline/refigure.rs 28-38: body of the loop, at index `i`, in place. -/
def refigureAt (c : Contour PD) (i : Nat) : Contour PD :=
  let c := c.modify i fun p => { p with a := p.a.knock p.x p.y, b := p.b.knock p.x p.y }
  let t := pointTypeForIdx c i
  c.modify i fun p => { p with ptype := t }

/-- src/outline/refigure.rs 25-41 -/
def refigure (c : Contour PD) : Contour PD := (List.range c.length).foldl refigureAt c

/-- src/outline/refigure.rs 17-23 -/
def refigureOutline (o : Outline PD) : Outline PD := o.map refigure

/-! ## Rounding -/

/-- src/outline/refigure.rs 86-91 -/
def Point.roundToInt (p : Point PD) : Point PD :=
  { p with x := p.x.roundInt, y := p.y.roundInt }

theorem toI32_i32ok (x : F32) : i32ok x.toI32 = true := by
  rw [IOF.i32ok_iff]
  cases x with
  | nan => simp [Flt.toI32]
  | num s k h =>
    unfold Flt.toI32
    simp only []
    generalize b32.val k / 2 ^ b32.u = q
    split
    · split <;> omega
    · split <;> omega

/-- src/outline/refigure.rs 93-98 -/
def GlifPoint.roundToInt (p : GlifPoint) : GlifPoint :=
  { p with
    x := .int p.x.toF32.roundInt.toI32 (toI32_i32ok _)
    y := .int p.y.toF32.roundInt.toI32 (toI32_i32ok _) }

/-- src/outline/refigure.rs 100-113, on contours -/
def roundContour (c : Contour PD) : Contour PD := c.map Point.roundToInt
/-- src/outline/refigure.rs 100-113, on outlines -/
def roundOutline (o : Outline PD) : Outline PD := o.map roundContour

/-! ## From file points to contours -/

/-- Change the last element (`contour.last_mut().map(..)`). -/
def modLast {α : Type} (f : α → α) : List α → List α
  | [] => []
  | [a] => [f a]
  | a :: b :: l => a :: modLast f (b :: l)

/-- The plain copy of a file point at src/outline/create.rs 35-42, 56-63, 67-74, 87-94. -/
def Point.ofGp (gp : GlifPoint) : Point PD :=
  { x := gp.x.toF32, y := gp.y.toF32, ptype := gp.ptype, name := gp.name, smooth := gp.smooth }

/-- One iteration of the loop src/outline/create.rs 22-76.  `mid` is the midpoint computation of
`IntegerOrFloat`s (src/outline/create.rs 9-16), whose arithmetic is in a crate that is not
available; it is a parameter.  State: contour so far and the queue of off-curve points. -/
def quadStep (mid : IOF → IOF → IOF) (st : Contour PD × List GlifPoint) (gp : GlifPoint) :
    Contour PD × List GlifPoint :=
  let stack := if gp.ptype = .offcurve then st.2 ++ [gp] else st.2
  match stack with
  | [h1, h2] =>
    (st.1 ++ [Point.ofGp h1,
        { x := (mid h1.x h2.x).toF32, y := (mid h1.y h2.y).toF32, ptype := .qcurve, name := gp.name }],
      [h2])
  | _ =>
    if gp.ptype ≠ .offcurve then
      match stack with
      | h :: rest => (st.1 ++ [Point.ofGp h, Point.ofGp gp], rest)
      | [] => (st.1 ++ [Point.ofGp gp], [])
    else (st.1, stack)

/-- src/outline/create.rs 18-106 -/
def quadraticContour (mid : IOF → IOF → IOF) (gc : GlifContour) : Contour PD :=
  let st := gc.foldl (quadStep mid) ([], [])
  match st.2, st.1 with
  | h1 :: _, h2 :: _ =>
    st.1 ++ [Point.ofGp h1,
      { x := (mid h1.x (IOF.ofF32 h2.x)).toF32, y := (mid h1.y (IOF.ofF32 h2.y)).toF32
        ptype := if h2.ptype = .offcurve then .qcurve else .qclose }]
  | _, _ => st.1

/-- One iteration of the loop src/outline/create.rs 112-141; `QCurve` hits `unreachable!`. -/
def cubicStep (st : Contour PD × List GlifPoint) (gp : GlifPoint) : R (Contour PD × List GlifPoint) :=
  match gp.ptype with
  | .offcurve => .ok (st.1, st.2 ++ [gp])
  | .line | .move | .curve =>
    let h1 := st.2.head?
    let h2 := st.2.tail.head?
    let contour := modLast (fun p : Point PD => { p with a := Handle.ofGlifPoint h1 }) st.1
    .ok (contour ++ [{ x := gp.x.toF32, y := gp.y.toF32, a := Handle.ofGlifPoint h1,
                       b := Handle.ofGlifPoint h2, smooth := gp.smooth, name := gp.name,
                       ptype := gp.ptype }],
      st.2.tail.tail)
  | .qcurve => .panic
  | _ => .ok st

/-- A loop over a list with early exit. -/
def foldR {α β : Type} (f : β → α → R β) : β → List α → R β
  | b, [] => .ok b
  | b, a :: l => f b a >>= fun b' => foldR f b' l

/-- src/outline/create.rs 108-163 -/
def cubicContour (gc : GlifContour) : R (Contour PD) := do
  let (contour, stack) ← foldR (cubicStep (PD := PD)) ([], []) gc
  let h1 := stack.head?
  let h2 := stack.tail.head?
  let contour : Contour PD := modLast (fun p : Point PD => { p with a := Handle.ofGlifPoint h1 }) contour
  let contour : Contour PD := match contour with
    | p :: rest =>
      if p.ptype ≠ .move then { p with b := Handle.ofGlifPoint h2 } :: rest else p :: rest
    | [] => []
  match contour with
  | [p] => if p.ptype = .move then .ok [] else .ok [p]
  | c => .ok c

/-- The dispatch src/outline/create.rs 170-174.  `gc[0]` panics on an empty contour. -/
def contourOfGlif (mid : IOF → IOF → IOF) (gc : GlifContour) : R (Contour PD) :=
  match gc with
  | [] => .panic
  | p :: _ =>
    match p.ptype with
    | .curve | .line | .move => cubicContour gc
    | .qcurve | .qclose => .ok (quadraticContour mid gc)
    | _ => .ok []

/-- src/outline/create.rs 165-183 -/
def outlineOfGlif (mid : IOF → IOF → IOF) (gcs : List GlifContour) : R (Outline PD) := do
  let cs ← Out.mapM' (contourOfGlif mid) gcs
  .ok (cs.filter fun c => !c.isEmpty)

/-! ## From contours to file points -/

/-- src/outline/conv.rs 38-46: indices kept on account of the on-curve point of type `pt` at `i`. -/
def keepFor (i : Nat) (pt : PointType) : R (List Int) :=
  match pt with
  | .move => .ok [(i : Int)]
  | .line => .ok [(i : Int)]
  | .qcurve => .ok [(i : Int) - 1, (i : Int)]
  | .curve => .ok [(i : Int) - 2, (i : Int) - 1, (i : Int)]
  | _ => .panic

/-- src/outline/conv.rs 34-53 -/
def cleanupOffcurves (contour : List GlifPoint) : R (List GlifPoint) := do
  let types := contour.zipIdx.filterMap fun (gp, i) =>
    if gp.ptype ≠ .offcurve then some (i, gp.ptype) else none
  let keeps ← Out.mapM' (fun (i, pt) => keepFor i pt) types
  let keepIndices : List Nat := keeps.flatten.filterMap fun i => if 0 ≤ i then some i.toNat else none
  .ok ((contour.zipIdx.filter fun (_, i) => keepIndices.contains i).map Prod.fst)

/-- `rotate_right(1)` (not called on an empty list here). -/
def rotR {α : Type} (l : List α) : List α :=
  match l.getLast? with
  | some a => a :: l.dropLast
  | none => []

/-- The loop src/outline/conv.rs 68-70, with fuel: `glifpoints[0]` panics when there is no point.
Running out of fuel (`length` rotations without meeting an on-curve point) stands for the loop
running forever and is reported as a panic too; by C05 this never happens. -/
def rotateLoop : Nat → List GlifPoint → R (List GlifPoint)
  | _, [] => .panic
  | 0, p :: l => if p.ptype = .offcurve then .panic else .ok (p :: l)
  | n + 1, p :: l => if p.ptype = .offcurve then rotateLoop n (rotR (p :: l)) else .ok (p :: l)

/-- The interleaving at src/outline/conv.rs 59-65: `[next_handle of the previous point,
prev_handle, point]` for each point. -/
def interleave : List GlifPoint → List GlifPoint → List GlifPoint → List GlifPoint
  | n :: ns, p :: ps, o :: os => n :: p :: o :: interleave ns ps os
  | _, _, _ => []

/-- src/outline/conv.rs 55-73.  `rotate_right(1)` at 62 panics on an empty contour (it would also
panic at 68). -/
def intoGlifpoints (c : Contour PD) : R GlifContour :=
  if c.isEmpty then .panic else do
  let on := c.map GlifPoint.ofPoint
  let nextHandles := rotR (c.map fun p => GlifPoint.fromHandle p .A)
  let prevHandles := c.map fun p => GlifPoint.fromHandle p .B
  let glifpoints ← cleanupOffcurves (interleave nextHandles prevHandles on)
  rotateLoop glifpoints.length glifpoints

/-- src/outline/conv.rs 20-32 -/
def outlineIntoGlifpoints (o : Outline PD) : R (List GlifContour) := Out.mapM' intoGlifpoints o

end GP
