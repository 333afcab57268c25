import Verif.Model.PenOps
import Verif.Spec.Refigure
/-!
# Paths of contours
-/
open Fl
namespace GP.Spec
variable {PD : Type}

/-- The position of a point, as `f64`s. -/
def pos64 (p : Point PD) : F64 × F64 := (p.x.to64, p.y.to64)

/-- Where an element of a path takes the pen. -/
def target : PathEl → Option (F64 × F64)
  | .moveTo p => some p
  | .lineTo p => some p
  | .quadTo _ p => some p
  | .curveTo _ _ p => some p
  | .closePath => none

/-- A line or a cubic curve. -/
def LineOrCurve (e : PathEl) : Prop := (∃ p, e = .lineTo p) ∨ ∃ a b p, e = .curveTo a b p

/-- One closed subpath of lines and cubic curves from `start`. -/
def ClosedPath (start : F64 × F64) (els : List PathEl) : Prop :=
  ∃ mid, els = .moveTo start :: mid ++ [.closePath] ∧ ∀ e ∈ mid, LineOrCurve e

/-- The pen is taken to the points of the contour, in order. -/
def Visits (c : Contour PD) (els : List PathEl) : Prop := (c.map pos64).Sublist (els.filterMap target)

/-- Every `ClosePath` closes a subpath that has been begun with a `MoveTo` and not been closed yet. -/
def ClosesOpened (els : List PathEl) : Prop :=
  ∀ pre post, els = pre ++ .closePath :: post → ∃ u p v, pre = u ++ .moveTo p :: v ∧ .closePath ∉ v

/-- Every segment of the closed contour is a curve: one of the two handles along it is off its point. -/
def AllCurved (c : Contour PD) : Prop :=
  ∀ x ∈ closedPairs c, settle x.1.a x.1 ≠ .colocated ∨ settle x.2.b x.2 ≠ .colocated

/-- Numerically the same position. -/
def SamePos (a b : F32 × F32) : Prop := a.1.feq b.1 = true ∧ a.2.feq b.2 = true

/-- The same point as far as drawing is concerned: position, type, and where its handles are. -/
structure SameDrawn (p q : Point PD) : Prop where
  x : q.x = p.x
  y : q.y = p.y
  ptype : q.ptype = p.ptype
  a : SamePos (outPos q) (outPos p)
  b : SamePos (inPos q) (inPos p)

/-- No coordinate is a NaN. -/
def NoNaN (p : Point PD) : Prop :=
  p.x.isNaN = false ∧ p.y.isNaN = false ∧ (outPos p).1.isNaN = false ∧ (outPos p).2.isNaN = false ∧
    (inPos p).1.isNaN = false ∧ (inPos p).2.isNaN = false

/-- A coordinate that is neither NaN nor subnormal. -/
def CleanNum (x : F32) : Prop := x.isNaN = false ∧ x.isSubnormal = false

/-- A file point with clean coordinates. -/
def CleanSpot (p : GlifPoint) : Prop := ∀ f, p.x = .float f ∨ p.y = .float f → CleanNum f

/-- Clean coordinates, also of the handles that are there. -/
structure Clean (p : Point PD) : Prop where
  x : CleanNum p.x
  y : CleanNum p.y
  a : ∀ u v, p.a = .at u v → CleanNum u ∧ CleanNum v
  b : ∀ u v, p.b = .at u v → CleanNum u ∧ CleanNum v

/-- The end point of an operation. -/
def opEnd : PenOp → Option GlifPoint
  | .moveTo p => some p
  | .lineTo p => some p
  | .quadTo _ p => some p
  | .curveTo _ _ p => some p
  | .close => none

end GP.Spec
