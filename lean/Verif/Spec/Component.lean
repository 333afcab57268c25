import Verif.Model.Component
import Verif.Spec.Matrix
import Mathlib.Logic.Relation
import Mathlib.Data.List.Forall2
/-!
# What resolving and flattening components should do
-/
open Fl
namespace GP.Spec
variable {PD D : Type}

section
variable (PD) (mid : IOF → IOF → IOF) (pio : PlistIO D) (files : Files)

/-- The file `f` can be read and holds the glyph `g`. -/
def Holds (f : Path) (g : Glif PD D) : Prop := ∃ e, files f = some (some e) ∧ readGlif mid pio {} e = .ok g

/-- The reference `d`, found in the file `f`, seen from outside: it names a file next to `f`. -/
def located (f : Path) (d : GlifComponent) : GlifComponent :=
  { d with filename := some (componentFile f d.base) }

/-- The glyph that reference `c` names refers to `d`. -/
def Refers (c d : GlifComponent) : Prop :=
  ∃ f, ∃ g : Glif PD D, c.filename = some f ∧ Holds PD mid pio files f g ∧ ∃ d' ∈ g.components.vec, d = located f d'

/-- `d` is reachable from `c` in any number of steps. -/
def Reach (c d : GlifComponent) : Prop := Relation.ReflTransGen (Refers PD mid pio files) c d

/-- The file named by the reference exists and parses. -/
def Resolvable (c : GlifComponent) : Prop :=
  ∃ f, ∃ g : Glif PD D, c.filename = some f ∧ Holds PD mid pio files f g

/-- Every file that can be reached from the references exists and parses. -/
def Healthy (cs : List GlifComponent) : Prop :=
  ∀ c ∈ cs, ∀ d, Reach PD mid pio files c d → Resolvable PD mid pio files d

/-- Some glyph reachable from the references refers, directly or indirectly, to itself: a chain of
references leads from its file back to its file. -/
def Cyclic (cs : List GlifComponent) : Prop :=
  ∃ c ∈ cs, ∃ d d', Reach PD mid pio files c d ∧ Relation.TransGen (Refers PD mid pio files) d d' ∧
    d'.filename = d.filename

/-- Among the references that can be reached, the name of a glyph determines its file. -/
def NamesDetermineFiles (cs : List GlifComponent) : Prop :=
  ∀ c ∈ cs, ∀ c' ∈ cs, ∀ d d', Reach PD mid pio files c d → Reach PD mid pio files c' d' →
    d.base = d'.base → d.filename = d'.filename

/-- Below one of the references a name comes back that was met on the way there, or is among the names `u`. -/
def NameReturns (u : List Str) (cs : List GlifComponent) : Prop :=
  ∃ c ∈ cs, ∃ z, Relation.TransGen (Refers PD mid pio files) c z ∧
    (z.base ∈ u ∨ ∃ w, Relation.TransGen (Refers PD mid pio files) c w ∧ Relation.TransGen (Refers PD mid pio files) w z ∧
      w.base = z.base)

/-- `t` is the unfolding of the reference graph from `c`. -/
inductive Unfolds : GlifComponent → Tree (Component PD D) → Prop
  | mk {c : GlifComponent} {t : Tree (Component PD D)} (f : Path) (g : Glif PD D)
      (file : c.filename = some f) (holds : Holds PD mid pio files f g)
      (name : t.data.glif.name = c.base) (filename : t.data.glif.filename = some f)
      (outline : t.data.glif.outline = g.outline) (anchors : t.data.glif.anchors = g.anchors)
      (matrix : Represents c.m t.data.matrix)
      (children : List.Forall₂ Unfolds (g.components.vec.map (located f)) t.children) : Unfolds c t

end

/-- At every node of the tree the components of the glyph there are, in order, references to the glyphs of the children. -/
inductive Answered : List GlifComponent → List (Tree (Component PD D)) → Prop
  | nil : Answered [] []
  | cons {c : GlifComponent} {cs : List GlifComponent} {t : Tree (Component PD D)} {ts : List (Tree (Component PD D))}
      (refers : c.refersTo t.data.glif = true) (below : Answered t.data.glif.components.vec t.children)
      (rest : Answered cs ts) : Answered (c :: cs) (t :: ts)

/-! ## Flattening -/

/-- The nodes of a tree, each with the matrices of its ancestors, nearest first. -/
def nodes {α : Type} (m : α → Affine) (above : List Affine) : Tree α → List (List Affine × α)
  | .node a ts => (above, a) :: nodesL m (m a :: above) ts
where
  nodesL {α : Type} (m : α → Affine) (above : List Affine) : List (Tree α) → List (List Affine × α)
  | [] => []
  | t :: ts => nodes m above t ++ nodesL m above ts

/-- The tree without what is below the children of the root. -/
def twoLevels {α : Type} (t : Tree α) : Tree α := .node t.data (t.children.map fun c => .node c.data [])

/-- A component and its components, these from the last to the first, each with the matrices of its ancestors. -/
def lastFirst {α : Type} (m : α → Affine) (t : Tree α) : List (List Affine × α) :=
  ([], t.data) :: t.children.reverse.map fun c => ([m t.data], c.data)

/-- The coordinates `m` sends `(x, y)` to. -/
def image (m : Affine) (x y : F32) : F32 × F32 :=
  ((m.a * x.to64 + m.c * y.to64 + m.e).to32, (m.b * x.to64 + m.d * y.to64 + m.f).to32)

/-- `q` is `p` moved by the first matrix, then by the second, and so on. -/
def MovedThrough : List Affine → Point PD → Point PD → Prop
  | [], p, q => p = q
  | m :: ms, p, q => ∃ r, MovedBy (image m) p r ∧ MovedThrough ms r q

/-- The contours of a node as drawn: those of its glyph moved by its own matrix and then by those
of its ancestors. -/
def DrawnNode (n : List Affine × Component PD D) (o : Outline PD) : Prop :=
  List.Forall₂ (List.Forall₂ (MovedThrough (n.2.matrix :: n.1))) (n.2.glif.outline.getD []) o

/-- `o` consists of the drawn contours of each of the nodes `ns`, in order. -/
def DrawnNodes (ns : List (List Affine × Component PD D)) (o : Outline PD) : Prop :=
  ∃ os : List (Outline PD), List.Forall₂ DrawnNode ns os ∧ o = os.flatten

/-- The rectangle contains the point. -/
def Inside (r : Rect) (p : Point PD) : Prop :=
  Flt.fle r.minx p.x = true ∧ Flt.fle p.x r.maxx = true ∧ Flt.fle r.miny p.y = true ∧ Flt.fle p.y r.maxy = true

/-- The smallest rectangle around points: it contains them and each side goes through one of them. -/
structure Bounds (r : Rect) (ps : List (Point PD)) : Prop where
  inside : ∀ p ∈ ps, Inside r p
  left : ∃ p ∈ ps, p.x = r.minx
  right : ∃ p ∈ ps, p.x = r.maxx
  bottom : ∃ p ∈ ps, p.y = r.miny
  top : ∃ p ∈ ps, p.y = r.maxy

end GP.Spec
