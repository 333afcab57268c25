import Verif.Model.Matrix
/-!
# Skia paths (src/outline/skia/{to,from}.rs) and src/outline/quad_to_cubic.rs

`skia_safe::Path` is a dependency of `/repo`.  It is modelled as the list of its verbs (Skia puts a
`move_to` before any other verb that begins a contour, so every path is made of contours that begin with
one); `path::Iter` (not forcing contours to be closed) as Skia documents it: each verb comes with the point
it starts at, a last `move_to` is left out, and `close` is preceded by a line to where the contour
began unless the pen is there already (or a coordinate is a NaN).

Conics only come from paths that other programs made; their approximation by two quadratics
(`convert_conic_to_quads`) is a parameter.
-/
open Fl
namespace GP
variable {PD : Type}

instance {f : Fmt} : Sub (Flt f) := ⟨Flt.sub⟩

/-- src/outline/quad_to_cubic.rs 8-20, over any type of numbers; `k` is `2./3.`.  (Coordinates are
`IntegerOrFloat`s of variant `Float` for Skia's points, see src/point/conv/skia.rs 35-48.) -/
def quadToCubic {K : Type} [Add K] [Sub K] [Mul K] (k : K) (p0 p1 p2 : K × K) :
    (K × K) × (K × K) × (K × K) × (K × K) :=
  (p0, (p0.1 + k * (p1.1 - p0.1), p0.2 + k * (p1.2 - p0.2)), (p2.1 + k * (p1.1 - p2.1), p2.2 + k * (p1.2 - p2.2)), p2)

/-- `2./3.` -/
def twoThirds : F32 := Flt.ofFrac b32 false 2 3

/-- `skia_safe::Point` -/
abbrev SkPoint := F32 × F32

/-- What a `skia_safe::Path` is made of. -/
inductive SkEl where
  | move (p : SkPoint)
  | line (p : SkPoint)
  | quad (c p : SkPoint)
  | conic (c p : SkPoint) (w : F32)
  | cubic (a b p : SkPoint)
  | close
  deriving DecidableEq, Repr

/-- What `path::Iter` yields. -/
inductive SkVerb where
  | move (p : SkPoint)
  | line (s p : SkPoint)
  | quad (s c p : SkPoint)
  | conic (s c p : SkPoint) (w : F32)
  | cubic (s a b p : SkPoint)
  | close
  deriving DecidableEq, Repr

/-- Whether `Iter` draws a line before closing: the pen is not where the contour began (NaNs count
as being there). -/
def needsLine (last start : SkPoint) : Bool :=
  !(last.1.isNaN || last.2.isNaN || start.1.isNaN || start.2.isNaN) && !(last.1.feq start.1 && last.2.feq start.2)

/-- `path::Iter`, with the pen at `last` in a contour begun at `start`. -/
def skIter : SkPoint → SkPoint → List SkEl → List SkVerb
  | _, _, [] => []
  | _, _, .move p :: rest => if rest.isEmpty then [] else .move p :: skIter p p rest
  | last, start, .line p :: rest => .line last p :: skIter p start rest
  | last, start, .quad c p :: rest => .quad last c p :: skIter p start rest
  | last, start, .conic c p w :: rest => .conic last c p w :: skIter p start rest
  | last, start, .cubic a b p :: rest => .cubic last a b p :: skIter p start rest
  | last, start, .close :: rest => (if needsLine last start then [.line last start] else []) ++ .close :: skIter start start rest

/-! ## To Skia -/

/-- The body of the loop src/outline/skia/to.rs 111-131, for `prevpoint` and `point`; `fx`, `fy` are
`calc_x` and `calc_y`.  `handle_or_colocated` is src/point.rs 207-218. -/
def skSegment (fx fy : F32 → F32) (prev p : Point PD) : List SkEl :=
  match p.ptype with
  | .line => [.line (fx p.x, fy p.y)]
  | .curve =>
    let h1 := prev.handleOrColocated .A
    let h2 := p.handleOrColocated .B
    [.cubic (fx h1.1, fy h1.2) (fx h2.1, fy h2.2) (fx p.x, fy p.y)]
  | .qcurve =>
    let h1 := prev.handleOrColocated .A
    [.quad (fx h1.1, fy h1.2) (fx p.x, fy p.y)]
  | _ => []

/-- The loop src/outline/skia/to.rs 111-131 after the first point. -/
def skSegments (fx fy : F32 → F32) : Point PD → List (Point PD) → List SkEl
  | _, [] => []
  | prev, p :: rest => skSegment fx fy prev p ++ skSegments fx fy p rest

/-- src/outline/skia/to.rs 133-147, with `firstpoint` and `lastpoint` -/
def skClosing (fx fy : F32 → F32) (first last : Point PD) : List SkEl :=
  if first.ptype = .move then []
  else (if first.ptype = .line then [] else skSegment fx fy last first) ++ [.close]

/-- src/outline/skia/to.rs 95-151 -/
def toSkiaPath (fx fy : F32 → F32) (c : Contour PD) : Option (List SkEl) :=
  match c with
  | [] => none
  | p :: rest => some (.move (fx p.x, fy p.y) :: skSegments fx fy p rest ++ skClosing fx fy p (rest.getLastD p))

/-- The loop src/outline/skia/to.rs 70-81.  State: `open`, `closed`.  The path of a contour with points is
there, so `unwrap` does not panic. -/
def skPathsLoop (fx fy : F32 → F32) : List SkEl → List SkEl → Outline PD → List SkEl × List SkEl
  | op, cl, [] => (op, cl)
  | op, cl, [] :: rest => skPathsLoop fx fy op cl rest
  | op, cl, (p :: c) :: rest =>
    let path := (toSkiaPath fx fy (p :: c)).getD []
    if p.ptype = .move then skPathsLoop fx fy (op ++ path) cl rest else skPathsLoop fx fy op (cl ++ path) rest

/-- src/outline/skia/to.rs 83-89: `count_points() > 0` holds of every path with a `move_to`. -/
def skNonempty (path : List SkEl) : Option (List SkEl) := if path.isEmpty then none else some path

/-- src/outline/skia/to.rs 60-93: the paths of the open and of the closed contours (`SkiaPaths`). -/
def toSkiaPaths (fx fy : F32 → F32) (o : Outline PD) : Option (List SkEl) × Option (List SkEl) :=
  let r := skPathsLoop fx fy [] [] o
  (skNonempty r.1, skNonempty r.2)

/-- `SkiaPaths::combined`: src/outline/skia/to.rs 16-23. -/
def skCombined (s : Option (List SkEl) × Option (List SkEl)) : List SkEl := s.1.getD [] ++ s.2.getD []

/-! ## From Skia -/

/-- src/outline/skia/from.rs 16: point type, points, conic weight -/
structure SkPt where
  ptype : PointType
  points : List SkPoint
  weight : Option F32
  deriving DecidableEq, Repr

/-- src/outline/skia/from.rs 24-34 and 72, for verbs other than `Close` -/
def SkVerb.pt : SkVerb → Option SkPt
  | .move p => some ⟨.move, [p], none⟩
  | .line s p => some ⟨.line, [s, p], none⟩
  | .quad s c p => some ⟨.qcurve, [s, c, p], none⟩
  | .conic s c p w => some ⟨.qcurve, [s, c, p], some w⟩
  | .cubic s a b p => some ⟨.curve, [s, a, b, p], none⟩
  | .close => none

/-- The loop src/outline/skia/from.rs 52-78.  State: `skoutline`, `skcontour`. -/
def skSplit : List (List SkPt) → List SkPt → List SkVerb → R (List (List SkPt))
  | o, c, [] => .ok (if c.isEmpty then o else o ++ [c])
  | o, c, v :: rest =>
    match v.pt with
    | some p =>
      if p.ptype = .move then skSplit (if c.isEmpty then o else o ++ [c]) [p] rest
      else skSplit o (c ++ [p]) rest
    | none =>
      match c with
      | [] => .panic
      | _ :: c' => skSplit o c' rest

/-- src/outline/skia/from.rs 40-86 -/
def splitSkiaPath (path : List SkEl) : R (List (List SkPt)) :=
  skSplit [] [] (skIter (Flt.zero, Flt.zero) (Flt.zero, Flt.zero) path)

/-- `convert_conic_to_quads` with `pow2` 1: two quadratics that share a point. -/
abbrev ConicToQuads := SkPoint → SkPoint → SkPoint → F32 → SkPoint × SkPoint × SkPoint × SkPoint × SkPoint

/-- `quad_to_cubic().to_vec()` -/
def cubicPts (a b c : SkPoint) : List SkPoint :=
  let q := quadToCubic twoThirds a b c
  [q.1, q.2.1, q.2.2.1, q.2.2.2]

/-- src/outline/skia/from.rs 92-151, for one element -/
def conicToCubic (conic : ConicToQuads) (p : SkPt) : R (List SkPt) :=
  if p.ptype = .qcurve then
    match p.points, p.weight with
    | [a, b, c], none => .ok [⟨.curve, cubicPts a b c, none⟩]
    | [a, b, c], some w =>
      let q := conic a b c w
      .ok [⟨.curve, cubicPts q.1 q.2.1 q.2.2.1, none⟩, ⟨.curve, cubicPts q.2.2.1 q.2.2.2.1 q.2.2.2.2, none⟩]
    | _, _ => .panic
  else .ok [p]

/-- src/outline/skia/from.rs 92-151 -/
def conicsToCubics (conic : ConicToQuads) (o : List (List SkPt)) : R (List (List SkPt)) :=
  Out.mapM' (fun c => do
    let l ← Out.mapM' (conicToCubic conic) c
    .ok l.flatten) o

def Handle.ofSk (p : SkPoint) : Handle := .at p.1 p.2

/-- The body of the loop src/outline/skia/from.rs 179-226 for the element `cur` with `prev_points`
`prev`.  `i` is its number and `isLast` holds of the last one. -/
def skPointAt (first prev : SkPt) (contour : Contour PD) (i : Nat) (isLast : Bool) (cur : SkPt) : R (Contour PD) := do
  let p0 ← Out.unwrap cur.points[0]?
  let point : Point PD := { x := p0.1, y := p0.2, ptype := cur.ptype }
  match cur.ptype with
  | .move => .ok (contour ++ [point])
  | .curve =>
    let p1 ← Out.unwrap cur.points[1]?
    let point := { point with a := Handle.ofSk p1 }
    let point ← if prev.ptype = .curve then do
        let h ← Out.unwrap prev.points[2]?
        .ok { point with b := Handle.ofSk h }
      else .ok point
    if isLast then
      match contour with
      | [] => .panic
      | c0 :: c => do
        let c0 ← if first.ptype = .curve then do
            let h ← Out.unwrap first.points[1]?
            .ok { c0 with a := Handle.ofSk h }
          else .ok c0
        let p2 ← Out.unwrap cur.points[2]?
        .ok ({ c0 with b := Handle.ofSk p2 } :: c ++ [point])
    else .ok (contour ++ [point])
  | .line =>
    if i ≠ 0 ∧ prev.ptype = .curve then do
      let h ← Out.unwrap prev.points[2]?
      .ok (contour ++ [{ point with ptype := .curve, b := Handle.ofSk h }])
    else .ok (contour ++ [point])
  | _ => .panic

/-- The loop src/outline/skia/from.rs 179-226 from element number `i` on; `prev` is `skc[i-1]`, or the
last element if `i` is 0. -/
def skPoints (first prev : SkPt) (contour : Contour PD) (i : Nat) : List SkPt → R (Contour PD)
  | [] => .ok contour
  | cur :: rest => do
    let contour ← skPointAt first prev contour i rest.isEmpty cur
    skPoints first cur contour (i + 1) rest

/-- src/outline/skia/from.rs 239-275 -/
def fixupOpen (contour : Contour PD) (last : SkPt) : R (Contour PD) := do
  let first ← Out.unwrap contour.head?
  let lastP ← Out.unwrap contour.getLast?
  let contour ← if lastP.ptype = .curve ∨ lastP.ptype = .line then
      match last.points with
      | [_, p] => .ok (contour ++ [({ x := p.1, y := p.2, ptype := .line } : Point PD)])
      | [_, _, h, p] =>
        .ok (contour ++ [({ x := p.1, y := p.2, ptype := .curve, b := if p.1.feq h.1 && p.2.feq h.2 then .colocated else Handle.ofSk h } : Point PD)])
      | _ => .panic
    else .ok contour
  match contour with
  | c0 :: c1 :: rest =>
    if c1.x.feq first.x && c1.y.feq first.y then .ok ({ c0 with a := c1.a, b := c1.b } :: rest) else .ok contour
  | _ => .ok contour

/-- src/outline/skia/from.rs 174-233, for one contour -/
def fromSkContour (skc : List SkPt) : R (Contour PD) :=
  match skc with
  | [] => .panic
  | first :: rest => do
    let last := rest.getLastD first
    let contour ← skPoints first last [] 0 (first :: rest)
    if contour.head?.any (fun p => p.ptype = .move) then fixupOpen contour last else .ok contour

/-- src/outline/skia/from.rs 156-160 and 166-237 -/
def outlineFromSkia (conic : ConicToQuads) (path : List SkEl) : R (Outline PD) := do
  let o ← splitSkiaPath path
  let o ← conicsToCubics conic o
  Out.mapM' fromSkContour o

end GP
