import Verif.Model.Error
/-!
# XML element trees (crate `xmltree`)

`/repo` reads and writes XML through `xmltree::Element` (src/glif/xml.rs 1-4).  Its source is not
available; this is the behaviour assumed of it.  Simplified: name spaces and prefixes are left out
(`/repo` never looks at them), and text is not parsed or printed here: the model starts after
`Element::parse` (src/glif/read.rs 75) and ends before `write_with_config` (src/glif/write.rs 39).
-/

namespace GP

/-- `xmltree::XMLNode` -/
inductive Node where
  | elem (name : String) (attrs : List (String × Str)) (children : List Node)
  | text (s : Str)
  | cdata (s : Str)
  | comment (s : Str)
  | pi (s : Str)

/-- `xmltree::Element`.  The attributes are a map; here the first entry for a key counts. -/
structure Element where
  name : String
  attrs : List (String × Str) := []
  children : List Node := []

/-- `XMLNode::Element` -/
def Element.node (e : Element) : Node := .elem e.name e.attrs e.children

/-- `attributes.get` -/
def Element.get (e : Element) (k : String) : Option Str := e.attrs.lookup k

/-- `attributes.insert` on an attribute list. -/
def insertAttr (k : String) (v : Str) : List (String × Str) → List (String × Str)
  | [] => [(k, v)]
  | (k', v') :: l => if k' = k then (k, v) :: l else (k', v') :: insertAttr k v l

/-- `attributes.insert` -/
def Element.set (e : Element) (k : String) (v : Str) : Element := { e with attrs := insertAttr k v e.attrs }

/-- Insert an attribute if there is a value. -/
def Element.setOpt (e : Element) (k : String) : Option Str → Element
  | some v => e.set k v
  | none => e

/-- `Element::take_child`: the first child element of that name and the children without it. -/
def takeChild (n : String) : List Node → Option (Element × List Node)
  | [] => none
  | c :: cs =>
    match c with
    | .elem name attrs children =>
      if name = n then some ({ name := name, attrs := attrs, children := children }, cs)
      else (takeChild n cs).map fun (e, r) => (e, c :: r)
    | _ => (takeChild n cs).map fun (e, r) => (e, c :: r)

theorem takeChild_length {n : String} {cs : List Node} {e : Element} {r : List Node}
    (h : takeChild n cs = some (e, r)) : r.length < cs.length := by
  induction cs generalizing e r with
  | nil => simp [takeChild] at h
  | cons c cs ih =>
    unfold takeChild at h
    split at h
    · split at h
      · cases h; simp
      · rw [Option.map_eq_some_iff] at h
        obtain ⟨⟨e', r'⟩, h1, h2⟩ := h
        cases h2; have := ih h1; simp; omega
    · rw [Option.map_eq_some_iff] at h
      obtain ⟨⟨e', r'⟩, h1, h2⟩ := h
      cases h2; have := ih h1; simp; omega

/-- `while let Some(e) = x.take_child(n) { v.push(f(e)?) }`: what is pushed, and what is left of the
children. -/
def takeLoop {α : Type} (n : String) (f : Element → R α) (cs : List Node) : R (List α × List Node) :=
  match _h : takeChild n cs with
  | none => .ok ([], cs)
  | some (e, rest) => do
    let a ← f e
    let (as, left) ← takeLoop n f rest
    .ok (a :: as, left)
termination_by cs.length
decreasing_by exact takeChild_length _h

/-- `Element::get_text`: the text and CDATA children joined, if there are any. -/
def Element.getText (e : Element) : Option Str :=
  let ts := e.children.filterMap fun c =>
    match c with
    | .text s => some s
    | .cdata s => some s
    | _ => none
  if ts.isEmpty then none else some ts.flatten

end GP
