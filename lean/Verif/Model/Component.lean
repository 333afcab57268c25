import Verif.Model.Matrix
/-!
# Components: resolution and flattening (src/component.rs)
-/
open Fl
namespace GP
variable {PD D : Type}

/-- src/component.rs 80-85.  (`Default` of `Affine` is the identity.) -/
structure Component (PD D : Type) where
  glif : Glif PD D := {}
  matrix : Affine := Affine.identity

/-- `trees::Tree`: a value and its children, first to last. -/
inductive Tree (α : Type) where
  | node (data : α) (children : List (Tree α))

namespace Tree
variable {α : Type}

def data : Tree α → α
  | node a _ => a

def children : Tree α → List (Tree α)
  | node _ ts => ts

end Tree

/-- src/component.rs 125-146.  (`glif::read` is called with the default pedantry,
src/glif/read.rs 70-72.) -/
def GlifComponent.toComponent (mid : IOF → IOF → IOF) (pio : PlistIO D) (files : Files) (c : GlifComponent) :
    R (Component PD D) := do
  let gliffn ← Out.ofOption .filenameNotSet c.filename
  let x ← Out.ofOption .filenameNotSet (files gliffn)
  let root ← Out.ofOption .xmlParse x
  let newglif : Glif PD D ← readGlif mid pio {} root
  let components := { newglif.components with
    vec := newglif.components.vec.map fun c => c.setFileName gliffn }
  .ok { glif := { name := c.base, filename := c.filename, components := components,
                  anchors := newglif.anchors, outline := newglif.outline }
        matrix := c.m.affine }

/-- src/component.rs 148-150 -/
def GlifComponent.refersTo (c : GlifComponent) (g : Glif PD D) : Bool := c.base == g.name

/-- Outcome of a call whose recursion is cut at some depth: `none` if that depth is exceeded. -/
abbrev Run (α : Type) := Option (R α)

/-- `?` on such an outcome. -/
def Run.bind {α β : Type} (x : Run α) (f : α → Run β) : Run β :=
  match x with
  | none => none
  | some (.ok a) => f a
  | some (.err e) => some (.err e)
  | some .panic => some .panic

/-- A `for` loop with early return, updating a state. -/
def Run.fold {α σ : Type} (step : σ → α → Run σ) : σ → List α → Run σ
  | s, [] => some (.ok s)
  | s, a :: l => Run.bind (step s a) fun s => Run.fold step s l

/-- src/component.rs 311-330.  `uniques` is `self.uniques`; it is returned because it is
`&mut`.  `toC` is `to_component`.  The first argument bounds the depth of the recursion. -/
def buildComponentTree (toC : GlifComponent → R (Component PD D)) :
    Nat → List Str → Component PD D → Run (Tree (Component PD D) × List Str)
  | 0, _, _ => none
  | depth + 1, uniques, component =>
    Run.bind
      (Run.fold (fun (s : List (Tree (Component PD D)) × List Str) gc =>
          if gc.base ∈ s.2 then some (.err .componentsCyclical)
          else
            Run.bind (some (toC gc)) fun c =>
            Run.bind (buildComponentTree toC depth (gc.base :: s.2) c) fun r =>
            some (.ok (s.1 ++ [r.1], r.2.filter fun b => b ≠ gc.base)))
        ([], uniques) component.glif.components.vec)
      fun s => some (.ok (.node component s.1, s.2))

/-- src/component.rs 284-298 -/
def GlifComponents.forest (toC : GlifComponent → R (Component PD D)) (depth : Nat) (gcs : GlifComponents) :
    Run (List (Tree (Component PD D))) :=
  Run.bind
    (Run.fold (fun (s : List (Tree (Component PD D)) × List Str) gc =>
        Run.bind (some (toC gc)) fun c =>
        Run.bind (buildComponentTree toC depth s.2 c) fun r =>
        some (.ok (s.1 ++ [r.1], r.2)))
      ([], gcs.uniques) gcs.vec)
    fun s => some (.ok s.1)

/-- src/component.rs 93-101, without the name -/
structure Rect where
  minx : F32 := Flt.zero
  miny : F32 := Flt.zero
  maxx : F32 := Flt.zero
  maxy : F32 := Flt.zero
  deriving DecidableEq, Repr

/-- src/component.rs 93-101 -/
structure ComponentRect where
  rect : Rect
  name : Str
  deriving DecidableEq, Repr

/-- src/component.rs 188-199 -/
def Rect.update (r : Rect) (isFirst : Bool) (p : Point PD) : Rect :=
  { minx := if Flt.flt p.x r.minx || isFirst then p.x else r.minx
    miny := if Flt.flt p.y r.miny || isFirst then p.y else r.miny
    maxx := if Flt.flt r.maxx p.x || isFirst then p.x else r.maxx
    maxy := if Flt.flt r.maxy p.y || isFirst then p.y else r.maxy }

/-- src/component.rs 201-203 -/
def Point.applyMatrices (ms : List Affine) (p : Point PD) : Point PD := ms.foldl Point.applyMatrix p

/-- The inner loop src/component.rs 185-206 over contour number `i`, from point number `j`: the
rectangle and the transformed points. -/
def rectContour (ms : List Affine) (i : Nat) : Nat → Rect → Contour PD → Rect × Contour PD
  | _, r, [] => (r, [])
  | j, r, p :: c =>
    let rest := rectContour ms i (j + 1) (r.update (decide (i = 0) && decide (j = 0)) p) c
    (rest.1, p.applyMatrices ms :: rest.2)

/-- The outer loop src/component.rs 184-207, from contour number `i`. -/
def rectOutline (ms : List Affine) : Nat → Rect → Outline PD → Rect × Outline PD
  | _, r, [] => (r, [])
  | i, r, c :: o =>
    let rc := rectContour ms i 0 r c
    let rest := rectOutline ms (i + 1) rc.1 o
    (rest.1, rc.2 :: rest.2)

/-- src/component.rs 163-212.  `above` are the matrices of the ancestors, nearest first (the climb
at 174-179); the state is the rectangle and `final_outline`. -/
def applyComponentRect (above : List Affine) (s : Rect × Outline PD) (c : Component PD D) : Rect × Outline PD :=
  match c.glif.outline with
  | some o => let r := rectOutline (c.matrix :: above) 0 s.1 o; (r.1, s.2 ++ r.2)
  | none => s

/-- The `while let Some(last) = component.back()` loop, src/component.rs 238-242: the children of
the root from last to first; their own children go with them when they are popped. -/
def flattenTree (t : Tree (Component PD D)) (final : Outline PD) : Rect × Outline PD :=
  t.children.reverse.foldl (fun s child => applyComponentRect [t.data.matrix] s child.data)
    (applyComponentRect [] ({}, final) t.data)

/-- The `for` loop src/component.rs 233-244. -/
def flattenForest (ts : List (Tree (Component PD D))) : Outline PD × List ComponentRect :=
  ts.foldl (fun s t =>
    let r := flattenTree t s.1
    (r.2, s.2 ++ [{ rect := r.1, name := t.data.glif.name }])) ([], [])

/-- src/component.rs 226-256 for `Glif`: the flattened glyph and the rectangles.  (`Run` because
resolution recurses.) -/
def Glif.flattened (toC : GlifComponent → R (Component PD D)) (depth : Nat) (g : Glif PD D) :
    Run (Glif PD D × List ComponentRect) :=
  Run.bind (g.components.forest toC depth) fun ts =>
    let r := flattenForest ts
    some (.ok ({ g with outline := some r.1, components := {} }, r.2))

end GP
