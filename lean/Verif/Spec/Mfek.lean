import Verif.Model.Layer
import Verif.Spec.Strings
import Verif.Float.Arith
/-!
# Specifications for the editor's types (C45 to C51 and others)
-/
open Fl
namespace GP.Spec

variable {PD : Type}

/-- The three kinds of contours. -/
inductive Kind where
  | cubic | quad | hyper
  deriving DecidableEq, Repr

/-- The kind of a contour. -/
def kind : MInner PD → Kind
  | .cubic _ => .cubic
  | .quad _ => .quad
  | .hyper _ => .hyper

/-- The points of a contour. -/
def pts : MInner PD → List (MPoint PD)
  | .cubic c => c.map .cubic
  | .quad c => c.map .quad
  | .hyper c => c.points.map .hyper

/-- What an open editor contour is: cubic and quadratic ones start with a move point, hyperbezier ones are
marked; cubic ones of fewer than two points are open in any case. -/
def IsOpen : MInner PD → Prop
  | .cubic c => c.length < 2 ∨ ∃ p, c.head? = some p ∧ p.ptype = .move
  | .quad c => ∃ p, c.head? = some p ∧ p.ptype = .move
  | .hyper c => c.isOpen = true

/-- The width handles of a contour, if it has any. -/
def widths (c : MContour PD) : Option (List VwsHandle) :=
  match c.operation with
  | some (.vws d) => some d.handles
  | _ => none

/-- The number of width handles is the number of points plus `k`. -/
def InStep (k : Int) (c : MContour PD) : Prop := ∀ w, widths c = some w → (w.length : Int) = (pts c.inner).length + k

/-- A point inserted into a contour of the same kind, as callers do through `inner_mut`
(`Vec::insert`, which panics beyond the end). -/
def insertPoint (i : MInner PD) (idx : Nat) (p : MPoint PD) : Out MfekErr (MInner PD) :=
  match i, p with
  | .cubic c, .cubic p => if idx ≤ c.length then .ok (.cubic (c.insertIdx idx p)) else .panic
  | .quad c, .quad p => if idx ≤ c.length then .ok (.quad (c.insertIdx idx p)) else .panic
  | .hyper c, .hyper p => if idx ≤ c.points.length then .ok (.hyper { c with points := c.points.insertIdx idx p }) else .panic
  | _, _ => .err .mismatch

/-- An edit of a contour. -/
inductive Edit (PD : Type) where
  | append (c : MContour PD)
  | delete (idx : Nat)
  | insert (idx : Nat) (p : MPoint PD)
  | sub (s e : Nat)
  | reverse
  | setOpen
  | setClosed

/-- What an edit does.  Insertion is that of a point together with `insert_op` of the same index. -/
def Edit.run (c : MContour PD) : Edit PD → Out MfekErr (MContour PD)
  | .append d => c.append d
  | .delete i => c.delete i
  | .insert i p => do
    let n ← insertPoint c.inner i p
    let o ← opInsert c.operation i
    .ok { inner := n, operation := o }
  | .sub s e => c.sub s e
  | .reverse => .ok c.reversePoints
  | .setOpen => c.setOpen
  | .setClosed => c.setClosed

/-- What a history of edits does. -/
def history (c : MContour PD) : List (Edit PD) → Out MfekErr (MContour PD)
  | [] => .ok c
  | e :: es => do
    let d ← e.run c
    history d es

/-- The points after an edit. -/
def PointsAfter (i j : MInner PD) : Edit PD → Prop
  | .append d => kind d.inner = kind i ∧ pts j = pts i ++ pts d.inner
  | .delete n => n < (pts i).length ∧ pts j = (pts i).eraseIdx n
  | .insert n p => n ≤ (pts i).length ∧ pts j = (pts i).insertIdx n p
  | .sub s e => s ≤ e ∧ e ≤ (pts i).length ∧ pts j = ((pts i).take e).drop s
  | .reverse => pts j = (pts i).reverse
  | .setOpen => (pts j).length = (pts i).length
  | .setClosed => (pts j).length = (pts i).length

/-- The handle of width 10 to both sides that is used where there is none to copy. -/
def plainHandle : VwsHandle := ⟨Flt.ofInt b64 10, Flt.ofInt b64 10, Flt.ofInt b64 0, .linear⟩

/-- The width handles after an edit. -/
def WidthsAfter (w w' : List VwsHandle) : Edit PD → Prop
  | .append d => w' = w ++ (widths d).getD (List.replicate (pts d.inner).length (w.getLast?.getD plainHandle))
  | .delete i => i < w.length ∧ w' = w.eraseIdx i
  | .insert i _ => ∃ x, w[i]? = some x ∧ w' = w.insertIdx i x
  | .sub s e => e < w.length ∧ w' = (w.take (e + 1)).drop s
  | .reverse => w' = w
  | .setOpen => w' = w
  | .setClosed => w' = w

/-- The kind of contour that a point belongs to. -/
def pointKind : MPoint PD → Kind
  | .cubic _ => .cubic
  | .quad _ => .quad
  | .hyper _ => .hyper

/-- The edits that can be done. -/
def Possible (c : MContour PD) : Edit PD → Prop
  | .append d => kind d.inner = kind c.inner
  | .delete n => n < (pts c.inner).length ∧ ∀ w, widths c = some w → n < w.length
  | .insert n _ => n ≤ (pts c.inner).length ∧ ∀ w, widths c = some w → n < w.length
  | .sub s e => s ≤ e ∧ e ≤ (pts c.inner).length ∧ ∀ w, widths c = some w → e < w.length
  | .reverse => True
  | .setOpen => kind c.inner = .hyper ∨ pts c.inner ≠ []
  | .setClosed => kind c.inner = .hyper ∨ pts c.inner ≠ []

/-- Contours of different kinds cannot be appended, nor points of another kind inserted. -/
def SameKind (c : MContour PD) : Edit PD → Prop
  | .append d => kind d.inner = kind c.inner
  | .insert _ p => pointKind p = kind c.inner
  | _ => True

/-- How many more width handles than points there are after an edit, if there were `k` more before. -/
def SurplusAfter (k : Int) (c : MContour PD) : Edit PD → Prop
  | .append d => ∀ m, InStep m d → InStep (k + if (widths d).isSome then m else 0) c
  | .sub _ _ => InStep 1 c
  | _ => InStep k c

/-- An edit that keeps handles in step with points, if there are `k` more handles than points. -/
def Keeps (k : Int) : Edit PD → Prop
  | .append d => (widths d).isSome = true → k = 0 ∧ InStep 0 d
  | .sub _ _ => k = 1
  | _ => True

/-- A point other than in its type. -/
def sameButType : MPoint PD → MPoint PD → Prop
  | .cubic p, .cubic q => q = { p with ptype := q.ptype }
  | .quad p, .quad q => q = { p with ptype := q.ptype }
  | .hyper p, .hyper q => p = q
  | _, _ => False

/-- The contour differs at most in the type of the first point, and for hyperbezier contours in being open. -/
def OnlyFirstType (i j : MInner PD) : Prop :=
  kind i = kind j ∧ (pts i).length = (pts j).length ∧ (∀ n, n ≠ 0 → (pts i)[n]? = (pts j)[n]?) ∧
  ∀ p q, (pts i)[0]? = some p → (pts j)[0]? = some q → sameButType p q

/-- The type of the first point, for contours whose points have types. -/
def StartsWith (t : PointType) : MInner PD → Prop
  | .cubic c => ∃ p, c.head? = some p ∧ p.ptype = t
  | .quad c => ∃ p, c.head? = some p ∧ p.ptype = t
  | .hyper _ => True

/-- Rigid motion of a handle by whole multiples of a unit: `h'` is `h` moved by `(dx, dy)`. -/
def HandleMoved (dx dy : Int) : Handle → Handle → Prop
  | .at x y, .at x' y' => (∃ v, Exact x v ∧ Exact x' (v + dx)) ∧ ∃ w, Exact y w ∧ Exact y' (w + dy)
  | .colocated, .colocated => True
  | _, _ => False

/-- A number on the grid of step `2^s` units (of `2^-149`), of less than `2^23` steps. -/
def OnGrid (s : Nat) (x : F32) (i : Int) : Prop := Exact x (i * 2 ^ s) ∧ i.natAbs ≤ 2 ^ 22

/-- A handle on the grid. -/
def GridHandle (s : Nat) : Handle → Prop
  | .at x y => (∃ i, OnGrid s x i) ∧ ∃ i, OnGrid s y i
  | .colocated => True

/-- The handles of a point. -/
def handlesOf : MPoint PD → List Handle
  | .cubic p => [p.a, p.b]
  | .quad p => [p.a]
  | .hyper p => [p.a, p.b]

end GP.Spec
