import Verif.Model.Contour
import Verif.Model.Component
/-!
# The editor's contours, points, layers and glyphs (src/glif/mfek)

`Out MfekErr` is the outcome of calls that can fail with `MFEKCommonMismatchError` or panic.
-/
open Fl
namespace GP

variable {PD D : Type}

/-- src/glif/mfek/contour.rs 118 -/
inductive MfekErr where
  | mismatch
  deriving DecidableEq, Repr

/-! ## Points -/

/-- src/glif/mfek/point/quad.rs 11-23 -/
structure QPoint (PD : Type) where
  x : F32 := default
  y : F32 := default
  a : Handle := .colocated
  name : Option Str := none
  ptype : PointType := default
  smooth : Bool := false
  data : Option PD := none
  deriving DecidableEq, Repr

/-- src/glif/mfek/point/hyper.rs 142-146 -/
inductive HyperPointType where
  | curve | line
  deriving DecidableEq, Repr

/-- src/glif/mfek/point/hyper.rs 10-22 -/
structure HyperPoint (PD : Type) where
  x : F32 := default
  y : F32 := default
  a : Handle := .colocated
  b : Handle := .colocated
  kind : HyperPointType := .curve
  smooth : Bool := false
  data : Option PD := none
  deriving DecidableEq, Repr

/-- `match a { Handle::At(hx, hy) => .. = Handle::At(hx - dx, hy - dy), Handle::Colocated => () }`:
src/glif/mfek/point/mod.rs 92-99, quad.rs 100-102, hyper.rs 97-104 -/
def Handle.moveBack (dx dy : F32) : Handle → Handle
  | .at hx hy => .at (hx.sub dx) (hy.sub dy)
  | .colocated => .colocated

/-- A point as seen through `dyn MFEKPointCommon`: one of the three types that implement it. -/
inductive MPoint (PD : Type) where
  | cubic (p : Point PD)
  | quad (p : QPoint PD)
  | hyper (p : HyperPoint PD)
  deriving DecidableEq, Repr

namespace MPoint

/-- src/glif/mfek/point/mod.rs 32-34, quad.rs 37-41, hyper.rs 37-39 -/
def hasHandle : MPoint PD → WhichHandle → Bool
  | .cubic _, _ => true
  | .quad _, wh => wh == .A
  | .hyper _, _ => true

/-- src/glif/mfek/point/mod.rs 36-42, quad.rs 43-49, hyper.rs 41-47 -/
def getHandle : MPoint PD → WhichHandle → Option Handle
  | .cubic p, .A => some p.a
  | .cubic p, .B => some p.b
  | .cubic _, .neither => none
  | .quad p, .A => some p.a
  | .quad _, _ => none
  | .hyper p, .A => some p.a
  | .hyper p, .B => some p.b
  | .hyper _, .neither => none

/-- src/glif/mfek/point/mod.rs 71-77, quad.rs 51-55, hyper.rs 49-55 -/
def setHandle : MPoint PD → WhichHandle → Handle → MPoint PD
  | .cubic p, .A, h => .cubic { p with a := h }
  | .cubic p, .B, h => .cubic { p with b := h }
  | .cubic p, .neither, _ => .cubic p
  | .quad p, .A, h => .quad { p with a := h }
  | .quad p, _, _ => .quad p
  | .hyper p, .A, h => .hyper { p with a := h }
  | .hyper p, .B, h => .hyper { p with b := h }
  | .hyper p, .neither, _ => .hyper p

/-- src/glif/mfek/point/mod.rs 44-57, quad.rs 57-63, hyper.rs 57-63 -/
def getHandlePosition (p : MPoint PD) (wh : WhichHandle) : Option (F32 × F32) :=
  match p.getHandle wh with
  | some (.at x y) => some (x, y)
  | _ => none

/-- src/glif/mfek/point/mod.rs 59-69, quad.rs 65-69, hyper.rs 65-67 -/
def setHandlePosition (p : MPoint PD) (wh : WhichHandle) (x y : F32) : MPoint PD := p.setHandle wh (.at x y)

/-- src/glif/mfek/point/mod.rs 135-141, quad.rs 122-126, hyper.rs 124-130 -/
def colocateHandle (p : MPoint PD) (wh : WhichHandle) : MPoint PD := p.setHandle wh .colocated

/-- src/glif/mfek/point/mod.rs 79-81, quad.rs 87-89, hyper.rs 84-86 -/
def getPosition : MPoint PD → F32 × F32
  | .cubic p => (p.x, p.y)
  | .quad p => (p.x, p.y)
  | .hyper p => (p.x, p.y)

/-- src/glif/mfek/point/mod.rs 83-100, quad.rs 91-103, hyper.rs 88-105 -/
def setPosition (q : MPoint PD) (x y : F32) : MPoint PD :=
  match q with
  | .cubic p => .cubic { p with x := x, y := y, a := p.a.moveBack (p.x.sub x) (p.y.sub y), b := p.b.moveBack (p.x.sub x) (p.y.sub y) }
  | .quad p => .quad { p with x := x, y := y, a := p.a.moveBack (p.x.sub x) (p.y.sub y) }
  | .hyper p => .hyper { p with x := x, y := y, a := p.a.moveBack (p.x.sub x) (p.y.sub y), b := p.b.moveBack (p.x.sub x) (p.y.sub y) }

/-- src/glif/mfek/point/mod.rs 102-105, quad.rs 105-108, hyper.rs 107-110 -/
def setPositionNoHandles (q : MPoint PD) (x y : F32) : MPoint PD :=
  match q with
  | .cubic p => .cubic { p with x := x, y := y }
  | .quad p => .quad { p with x := x, y := y }
  | .hyper p => .hyper { p with x := x, y := y }

/-- src/glif/mfek/point/mod.rs 115-117, quad.rs 79-81, hyper.rs 77-79 -/
def getName : MPoint PD → Option Str
  | .cubic p => p.name
  | .quad p => p.name
  | .hyper _ => none

/-- src/glif/mfek/point/mod.rs 119-121, quad.rs 83-85, hyper.rs 81-82 -/
def setName (q : MPoint PD) (n : Str) : MPoint PD :=
  match q with
  | .cubic p => .cubic { p with name := some n }
  | .quad p => .quad { p with name := some n }
  | .hyper p => .hyper p

/-- src/glif/mfek/point/mod.rs 143-145, quad.rs 128-130, hyper.rs 132-134 -/
def getSmooth : MPoint PD → Option Bool
  | .cubic p => some p.smooth
  | _ => none

/-- src/glif/mfek/point/mod.rs 147-149, quad.rs 132-134, hyper.rs 136-138 -/
def setSmooth (q : MPoint PD) (s : Bool) : MPoint PD :=
  match q with
  | .cubic p => .cubic { p with smooth := s }
  | q => q

end MPoint

/-! ## Contour operations -/

/-- src/glif/mfek/contour_operations/vws.rs 158-161 -/
inductive InterpolationType where
  | null | linear
  deriving DecidableEq, Repr

/-- src/glif/mfek/contour_operations/vws.rs 163-170 -/
def InterpolationType.text : InterpolationType → Str
  | .null => "none".toList
  | .linear => "linear".toList

/-- src/glif/mfek/contour_operations/vws.rs 172-181; `none` for an error. -/
def InterpolationType.parse (s : Str) : Option InterpolationType :=
  if s = "none".toList then some .null
  else if s = "linear".toList then some .linear
  else none

/-- src/glif/mfek/contour_operations/vws.rs 88-93 -/
inductive JoinType where
  | bevel | miter | circle | round
  deriving DecidableEq, Repr

/-- src/glif/mfek/contour_operations/vws.rs 95-104 -/
def JoinType.text : JoinType → Str
  | .bevel => "bevel".toList
  | .miter => "miter".toList
  | .circle => "circle".toList
  | .round => "round".toList

/-- src/glif/mfek/contour_operations/vws.rs 106-117; `none` for an error. -/
def JoinType.parse (s : Str) : Option JoinType :=
  if s = "bevel".toList then some .bevel
  else if s = "miter".toList then some .miter
  else if s = "circle".toList then some .circle
  else if s = "round".toList then some .round
  else none

/-- src/glif/mfek/contour_operations/vws.rs 120-125 -/
inductive CapType where
  | custom | square | circle | round
  deriving DecidableEq, Repr

/-- src/glif/mfek/contour_operations/vws.rs 127-136 -/
def CapType.text : CapType → Str
  | .custom => "custom".toList
  | .square => "square".toList
  | .circle => "circle".toList
  | .round => "round".toList

/-- src/glif/mfek/contour_operations/vws.rs 138-155; `none` for an error. -/
def CapType.parse (s : Str) : Option CapType :=
  if s = "custom".toList then some .custom
  else if s = "square".toList then some .square
  else if s = "circle".toList then some .circle
  else if s = "round".toList then some .round
  else if ".glif".toList.isSuffixOf s then some .custom
  else none

/-- src/glif/mfek/contour_operations/vws.rs 80-85 -/
structure VwsHandle where
  left : F64
  right : F64
  tangent : F64
  interpolation : InterpolationType
  deriving DecidableEq, Repr

/-- src/glif/mfek/contour_operations/vws.rs 9-16 -/
structure VwsContour where
  handles : List VwsHandle
  join : JoinType
  capStart : CapType
  capEnd : CapType
  removeInternal : Bool
  removeExternal : Bool
  deriving DecidableEq, Repr

/-- src/glif/mfek/contour_operations/dash.rs 6-19 -/
structure DashContour where
  strokeWidth : F32
  cull : Option (F32 × F32)
  dashDesc : List F32
  includeLastPath : Bool
  paintJoin : UInt8
  paintCap : UInt8
  deriving DecidableEq, Repr

/-- src/glif/mfek/contour_operations/pap.rs 9-12 -/
inductive PatternCopies where
  | single | repeated
  deriving DecidableEq, Repr

/-- src/glif/mfek/contour_operations/pap.rs 15-22 -/
inductive PatternSubdivide where
  | off | simple (n : Nat) | angle (a : F64)
  deriving DecidableEq, Repr

/-- src/glif/mfek/contour_operations/pap.rs 26-33 -/
inductive PatternCulling where
  | off | removeOverlapping | eraseOverlapping (a b : F64)
  deriving DecidableEq, Repr

/-- src/glif/mfek/contour_operations/pap.rs 45-52 -/
inductive PatternStretch where
  | off | on | spacing
  deriving DecidableEq, Repr

/-- src/glif/mfek/contour_operations/pap.rs 55-73.  `C` is the type of contours. -/
structure PapContour (C : Type) where
  pattern : List C
  copies : PatternCopies
  subdivide : PatternSubdivide
  isVertical : Bool
  stretch : PatternStretch
  spacing : F64
  simplify : Bool
  normalOffset : F64
  tangentOffset : F64
  patternScale : F64 × F64
  centerPattern : Bool
  preventOverdraw : PatternCulling
  twoPassCulling : Bool
  reversePath : Bool
  reverseCulling : Bool
  warpPattern : Bool
  splitPath : Bool

/-- src/glif/mfek/contour_operations/mod.rs 22-26 -/
inductive ContourOp (C : Type) where
  | vws (d : VwsContour)
  | pap (d : PapContour C)
  | dash (d : DashContour)

/-- src/glif/mfek/inner/hyper.rs 7-10 -/
structure HyperInner (PD : Type) where
  points : List (HyperPoint PD)
  isOpen : Bool
  deriving DecidableEq, Repr

/-- src/glif/mfek/inner/mod.rs 11-15 -/
inductive MInner (PD : Type) where
  | cubic (c : List (Point PD))
  | quad (c : List (QPoint PD))
  | hyper (c : HyperInner PD)
  deriving DecidableEq, Repr

/-- src/glif/mfek/contour.rs 19-22 -/
structure MContour (PD : Type) where
  inner : MInner PD
  operation : Option (ContourOp (MContour PD))

/-! ## Inner contours -/

namespace MInner

/-- src/glif/mfek/inner/cubic.rs 8-10, quad.rs 21-23, hyper.rs 38-40 -/
def len : MInner PD → Nat
  | .cubic c => c.length
  | .quad c => c.length
  | .hyper c => c.points.length

/-- src/glif/mfek/inner/cubic.rs 16-18, quad.rs 14-18, hyper.rs 46-48.  `self[0]` panics for an empty
quadratic contour. -/
def isOpen : MInner PD → Out MfekErr Bool
  | .cubic c => .ok (GP.isOpen c)
  | .quad [] => .panic
  | .quad (p :: _) => .ok (p.ptype == .move)
  | .hyper c => .ok c.isOpen

/-- src/glif/mfek/inner/mod.rs 109-111 -/
def isClosed (i : MInner PD) : Out MfekErr Bool := (fun b => !b) <$> i.isOpen

/-- src/glif/mfek/inner/cubic.rs 24-26, quad.rs 37-39, hyper.rs 54-56.  `self[0]` panics for an empty
contour. -/
def setOpen : MInner PD → Out MfekErr (MInner PD)
  | .cubic [] => .panic
  | .cubic (p :: c) => .ok (.cubic ({ p with ptype := .move } :: c))
  | .quad [] => .panic
  | .quad (p :: c) => .ok (.quad ({ p with ptype := .move } :: c))
  | .hyper c => .ok (.hyper { c with isOpen := true })

/-- src/glif/mfek/inner/cubic.rs 28-30, quad.rs 41-43, hyper.rs 58-60 -/
def setClosed : MInner PD → Out MfekErr (MInner PD)
  | .cubic [] => .panic
  | .cubic (p :: c) => .ok (.cubic ({ p with ptype := .curve } :: c))
  | .quad [] => .panic
  | .quad (p :: c) => .ok (.quad ({ p with ptype := .curve } :: c))
  | .hyper c => .ok (.hyper { c with isOpen := false })

/-- src/glif/mfek/inner/cubic.rs 36-42, quad.rs 49-55, hyper.rs 66-72 -/
def getPoint : MInner PD → Nat → Option (MPoint PD)
  | .cubic c, i => c[i]?.map .cubic
  | .quad c, i => c[i]?.map .quad
  | .hyper c, i => c.points[i]?.map .hyper

/-- `Vec::remove`: panics if the index is out of bounds. -/
def vecRemove {α : Type} (l : List α) (i : Nat) : Out MfekErr (List α) :=
  if i < l.length then .ok (l.eraseIdx i) else .panic

/-- src/glif/mfek/inner/cubic.rs 52-54, quad.rs 65-67, hyper.rs 90-92 -/
def delete (i : MInner PD) (idx : Nat) : Out MfekErr (MInner PD) :=
  match i with
  | .cubic c => .cubic <$> vecRemove c idx
  | .quad c => .quad <$> vecRemove c idx
  | .hyper c => (fun l => .hyper { c with points := l }) <$> vecRemove c.points idx

/-- src/glif/mfek/inner/cubic.rs 56-58, quad.rs 69-71, hyper.rs 94-96.  `Vec::reverse`, not the
reversal of src/outline/contour.rs. -/
def reversePoints : MInner PD → MInner PD
  | .cubic c => .cubic c.reverse
  | .quad c => .quad c.reverse
  | .hyper c => .hyper { c with points := c.points.reverse }

/-- `v[start..end].to_vec()`: panics unless `start ≤ end ≤ len`. -/
def vecSlice {α : Type} (l : List α) (s e : Nat) : Out MfekErr (List α) :=
  if s ≤ e ∧ e ≤ l.length then .ok ((l.take e).drop s) else .panic

/-- src/glif/mfek/inner/mod.rs 47-62 -/
def sub (i : MInner PD) (s e : Nat) : Out MfekErr (MInner PD) :=
  match i with
  | .cubic c => .cubic <$> vecSlice c s e
  | .quad c => .quad <$> vecSlice c s e
  | .hyper c => (fun l => .hyper { points := l, isOpen := c.isOpen }) <$> vecSlice c.points s e

/-- src/glif/mfek/inner/mod.rs 64-97 -/
def append : MInner PD → MInner PD → Out MfekErr (MInner PD)
  | .cubic c, .cubic d => .ok (.cubic (c ++ d))
  | .quad c, .quad d => .ok (.quad (c ++ d))
  | .hyper c, .hyper d => .ok (.hyper { c with points := c.points ++ d.points })
  | _, _ => .err .mismatch

end MInner

/-- src/glif/mfek/inner/hyper.rs 28-34 -/
def HyperInner.nextPoint (c : HyperInner PD) (idx : Nat) : Option (HyperPoint PD) :=
  if idx + 1 = c.points.length ∧ c.isOpen = false ∧ 1 < c.points.length then c.points[0]? else c.points[idx + 1]?

/-! ## Operations on width handles -/

namespace VwsContour

/-- src/glif/mfek/contour_operations/vws.rs 20-25.  `split_at` panics beyond the end; if `begin > end + 1`
the subtraction overflows, which panics itself or in the second `split_at`. -/
def sub (v : VwsContour) (b e : Nat) : Out MfekErr VwsContour :=
  if b ≤ v.handles.length ∧ b ≤ e + 1 ∧ e + 1 - b ≤ v.handles.length - b then
    .ok { v with handles := (v.handles.drop b).take (e + 1 - b) }
  else .panic

/-- src/glif/mfek/contour_operations/vws.rs 36-41, 47-52 -/
def defaultHandle : VwsHandle := ⟨Flt.ofInt b64 10, Flt.ofInt b64 10, Flt.ofInt b64 0, .linear⟩

/-- src/glif/mfek/contour_operations/vws.rs 35-43 -/
def pushLast : Nat → List VwsHandle → List VwsHandle
  | 0, l => l
  | n + 1, l => pushLast n (l ++ [l.getLast?.getD defaultHandle])

/-- src/glif/mfek/contour_operations/vws.rs 27-59 -/
def append (v : VwsContour) (other : MContour PD) : VwsContour :=
  match other.operation with
  | some (.vws d) => { v with handles := v.handles ++ d.handles }
  | some _ => { v with handles := pushLast other.inner.len v.handles }
  | none => { v with handles := pushLast other.inner.len v.handles }

/-- src/glif/mfek/contour_operations/vws.rs 61-71 -/
def insertOp (v : VwsContour) (idx : Nat) : Out MfekErr VwsContour :=
  match v.handles[idx]? with
  | some h => .ok { v with handles := v.handles.insertIdx idx h }
  | none => .panic

/-- src/glif/mfek/contour_operations/vws.rs 73-75 -/
def removeOp (v : VwsContour) (idx : Nat) : Out MfekErr VwsContour :=
  (fun l => { v with handles := l }) <$> MInner.vecRemove v.handles idx

end VwsContour

/-- src/glif/mfek/contour_operations/mod.rs 37-49 (pap.rs 76 and dash.rs 22 do nothing) -/
def opSub (o : Option (ContourOp (MContour PD))) (b e : Nat) : Out MfekErr (Option (ContourOp (MContour PD))) :=
  match o with
  | some (.vws d) => (fun d => some (.vws d)) <$> d.sub b e
  | o => .ok o

/-- src/glif/mfek/contour_operations/mod.rs 51-63 (pap.rs 77 and dash.rs 23 do nothing) -/
def opAppend (o : Option (ContourOp (MContour PD))) (other : MContour PD) : Option (ContourOp (MContour PD)) :=
  match o with
  | some (.vws d) => some (.vws (d.append other))
  | o => o

/-- src/glif/mfek/contour_operations/mod.rs 65-75 (pap.rs 78 and dash.rs 24 do nothing) -/
def opInsert (o : Option (ContourOp (MContour PD))) (idx : Nat) : Out MfekErr (Option (ContourOp (MContour PD))) :=
  match o with
  | some (.vws d) => (fun d => some (.vws d)) <$> d.insertOp idx
  | o => .ok o

/-- src/glif/mfek/contour_operations/mod.rs 77-87 (pap.rs 79 and dash.rs 25 do nothing) -/
def opRemove (o : Option (ContourOp (MContour PD))) (idx : Nat) : Out MfekErr (Option (ContourOp (MContour PD))) :=
  match o with
  | some (.vws d) => (fun d => some (.vws d)) <$> d.removeOp idx
  | o => .ok o

/-! ## Contours -/

namespace MContour

/-- src/glif/mfek/contour.rs 79-95 -/
def ofContour (c : Contour PD) : MContour PD := { inner := .cubic c, operation := none }

/-- src/glif/mfek/contour.rs 52-62 -/
def sub (c : MContour PD) (s e : Nat) : Out MfekErr (MContour PD) := do
  let i ← c.inner.sub s e
  let o ← opSub c.operation s e
  .ok { inner := i, operation := o }

/-- src/glif/mfek/contour.rs 64-72 -/
def append (c other : MContour PD) : Out MfekErr (MContour PD) := do
  let i ← c.inner.append other.inner
  .ok { inner := i, operation := opAppend c.operation other }

/-- src/glif/mfek/contour.rs 173-176 -/
def delete (c : MContour PD) (idx : Nat) : Out MfekErr (MContour PD) := do
  let i ← c.inner.delete idx
  let o ← opRemove c.operation idx
  .ok { inner := i, operation := o }

/-- src/glif/mfek/contour.rs 257-260: `delete` of `MFEKCubicContour`. -/
def deleteCubic (c : MContour PD) (idx : Nat) : Out MfekErr (MContour PD) := do
  let i ← c.inner.delete idx
  .ok { c with inner := i }

/-- src/glif/mfek/contour.rs 168-171 -/
def reversePoints (c : MContour PD) : MContour PD := { c with inner := c.inner.reversePoints }

/-- src/glif/mfek/contour.rs 182-184 -/
def setOpen (c : MContour PD) : Out MfekErr (MContour PD) := (fun i => { c with inner := i }) <$> c.inner.setOpen

/-- src/glif/mfek/contour.rs 186-188 -/
def setClosed (c : MContour PD) : Out MfekErr (MContour PD) := (fun i => { c with inner := i }) <$> c.inner.setClosed

/-- src/glif/mfek/contour.rs 160-162 -/
def isOpen (c : MContour PD) : Out MfekErr Bool := c.inner.isOpen

/-- src/glif/mfek/contour.rs 48-50 -/
def setOperation (c : MContour PD) (o : Option (ContourOp (MContour PD))) : MContour PD := { c with operation := o }

/-- The points given out by the iterator of src/glif/mfek/contour.rs 97-110 in at most `n` steps from
index `i`. -/
def iterFrom (c : MContour PD) : Nat → Nat → List (MPoint PD)
  | 0, _ => []
  | n + 1, i =>
    match c.inner.getPoint i with
    | some p => p :: c.iterFrom n (i + 1)
    | none => []

end MContour

/-! ## Outlines and glyphs -/

/-- src/glif/mfek/mod.rs 135 -/
abbrev MOutline (PD : Type) := List (MContour PD)

/-- src/error/mfek.rs 9-14 -/
inductive OpsErr where
  | moreContoursThanOps
  | moreOpsThanContours
  | moreLayersThanVecOps
  | moreVecOpsThanLayers
  deriving DecidableEq, Repr

/-- src/glif/mfek/traits.rs 7 -/
abbrev OutlineOps (PD : Type) := List (Option (ContourOp (MContour PD)))

/-- src/glif/mfek/traits.rs 74-88.  The error, if any, and the outline, which has been changed up to the
point of the error. -/
def attachOps : MOutline PD → OutlineOps PD → Option OpsErr × MOutline PD
  | [], [] => (none, [])
  | [], _ :: _ => (some .moreOpsThanContours, [])
  | c :: cs, [] => (some .moreContoursThanOps, c :: cs)
  | c :: cs, o :: os => ((attachOps cs os).1, c.setOperation o :: (attachOps cs os).2)

/-- src/glif/mfek/traits.rs 89-95.  The outline is left as it is. -/
def detachOps (o : MOutline PD) : OutlineOps PD := o.map MContour.operation

/-- src/glif/mfek/traits.rs 37-46 -/
def cleanlyDowngradable (o : MOutline PD) : Bool :=
  o.all (fun c => match c.inner with | .cubic _ => true | _ => false) && o.all fun c => c.operation.isNone

/-- `match contour.inner() { Cubic(c) => c.clone(), _ => panic!(..) }`: src/glif/mfek/traits.rs 51-56,
mod.rs 91-95 -/
def MContour.toContour (c : MContour PD) : Out MfekErr (Contour PD) :=
  match c.inner with
  | .cubic c => .ok c
  | _ => .panic

/-- src/glif/mfek/traits.rs 48-59 -/
def MOutline.downgrade (o : MOutline PD) : Out MfekErr (Outline PD) := Out.mapM' MContour.toContour o

/-- src/glif/mfek/traits.rs 63-69 -/
def Outline.upgrade (o : Outline PD) : MOutline PD := o.map MContour.ofContour

/-- src/glif/mfek/mod.rs 176-182 -/
inductive LayerOperation where
  | difference | union | xor | intersect
  deriving DecidableEq, Repr

/-- src/glif/mfek/layer.rs 16-23 -/
structure Layer (PD : Type) where
  name : Str
  visible : Bool
  color : Option Color
  outline : MOutline PD
  operation : Option LayerOperation
  images : List (GlifImage × Affine)

/-- src/glif/mfek/mod.rs 34-53.  The field `history`, which no modelled function reads or writes, is left
out. -/
structure MGlif (PD : Type) where
  layers : List (Layer PD)
  anchors : List Anchor
  components : GlifComponents
  flattened : Option (Outline PD)
  componentRects : Option (List ComponentRect)
  guidelines : List Guideline
  width : Option Nat
  unicode : List Char
  name : Str
  note : Option Str
  filename : Option Path

/-- `format!(DEFAULT_LAYER_FORMAT_STR!(), 0)`: src/glif/mfek/layer.rs 12 -/
def layerZero : Str := "Layer 0".toList

/-- src/glif/mfek/mod.rs 55-91 -/
def MGlif.ofGlif (g : Glif PD D) : MGlif PD :=
  { layers := [{ name := layerZero, visible := true, color := none, outline := (g.outline.getD []).map MContour.ofContour,
                 operation := none, images := g.images.map fun i => (i, i.m.affine) }],
    flattened := none, componentRects := none, anchors := g.anchors, components := g.components,
    guidelines := g.guidelines, width := g.width, unicode := g.unicode, name := g.name, note := g.note,
    filename := g.filename }

/-- src/glif/mfek/mod.rs 93-120.  `glif.layers[0]` panics without layers. -/
def MGlif.toGlif (m : MGlif PD) : Out MfekErr (Glif PD D) :=
  match m.layers with
  | [] => .panic
  | l :: _ => do
    let outline ← Out.mapM' MContour.toContour l.outline
    .ok { anchors := m.anchors, components := m.components, guidelines := m.guidelines, width := m.width,
          unicode := m.unicode, name := m.name, filename := m.filename, outline := some outline,
          images := l.images.map Prod.fst, note := m.note }

/-- src/glif/mfek/traits.rs 100-114, over the layers -/
def attachLayers : List (Layer PD) → List (OutlineOps PD) → Option OpsErr × List (Layer PD)
  | [], [] => (none, [])
  | [], _ :: _ => (some .moreVecOpsThanLayers, [])
  | l :: ls, [] => (some .moreLayersThanVecOps, l :: ls)
  | l :: ls, o :: os =>
    match attachOps l.outline o with
    | (some e, out) => (some e, { l with outline := out } :: ls)
    | (none, out) => ((attachLayers ls os).1, { l with outline := out } :: (attachLayers ls os).2)

/-- src/glif/mfek/traits.rs 100-114 -/
def MGlif.attachOps (m : MGlif PD) (ops : List (OutlineOps PD)) : Option OpsErr × MGlif PD :=
  ((attachLayers m.layers ops).1, { m with layers := (attachLayers m.layers ops).2 })

/-- src/glif/mfek/traits.rs 116-124 -/
def MGlif.detachOps (m : MGlif PD) : List (OutlineOps PD) := m.layers.map fun l => GP.detachOps l.outline

end GP
