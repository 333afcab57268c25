import Verif.Spec.Plist
import Verif.Spec.Spoken
import Verif.Spec.Decimal
/-!
# What the lib of a file says

After the XML format of property lists: `<dict>`, `<array>`, `<string>`, `<integer>`, `<real>`, `<true>`, `<false>`, `<date>`
and `<data>`.
-/
open Fl
namespace GP.Spec
open Plist
variable {L : Type}

/-- Comments, instructions and white space mean nothing between the elements of a property list. -/
def Passed : Node → Prop
  | .elem _ _ _ => False
  | .text s => Blank s
  | .cdata s => Blank s
  | .comment _ => True
  | .pi _ => True

instance : DecidablePred Passed := fun c => by cases c <;> unfold Passed <;> infer_instance

/-- What is left without them. -/
def matter (cs : List Node) : List Node := cs.filter fun c => ¬ Passed c

/-- The text in an element without elements, all ends of lines being line feeds. -/
inductive Content : List Node → Str → Prop
  | nil : Content [] []
  | text {s cs t} : Content cs t → Content (.text s :: cs) (unix s ++ t)
  | cdata {s cs t} : Content cs t → Content (.cdata s :: cs) (s ++ t)
  | comment {s cs t} : Content cs t → Content (.comment s :: cs) t
  | pi {s cs t} : Content cs t → Content (.pi s :: cs) t

/-- The keys without repetition, each where it is first. -/
def firstKeys : List Str → List Str
  | [] => []
  | k :: ks => k :: (firstKeys ks).filter (· ≠ k)

/-- The dictionary of these entries: a key that is there more than once is where it is first, with the value it has last. -/
def DictOf (es d : Dict L) : Prop :=
  d.map (·.1) = firstKeys (es.map (·.1)) ∧ ∀ k v, (k, v) ∈ d → ∃ a b, es = a ++ (k, v) :: b ∧ k ∉ b.map (·.1)

/-- The node says the value. -/
inductive ValueSays (lio : LeafIO L) : Node → PVal L → Prop
  | str {as cs s} (h : Content cs s) : ValueSays lio (.elem "string" as cs) (.str s)
  | int {as cs s i} (h : Content cs s) (hi : IntText s i) (hl : -(2 ^ 63) ≤ i) (hu : i < 2 ^ 64) : ValueSays lio (.elem "integer" as cs) (.int i)
  | real {as cs s x} (h : Content cs s) (hx : FloatText b64 s x) : ValueSays lio (.elem "real" as cs) (.real x)
  | true {as cs} (h : matter cs = []) : ValueSays lio (.elem "true" as cs) (.bool true)
  | false {as cs} (h : matter cs = []) : ValueSays lio (.elem "false" as cs) (.bool false)
  | leaf {n as cs s x} (hn : n = "date" ∨ n = "data") (h : Content cs s) (hx : lio.parse n s = some x) : ValueSays lio (.elem n as cs) (.leaf x)
  | array {as cs} (ps : List (Node × PVal L)) (hm : matter cs = ps.map (·.1)) (h : ∀ p ∈ ps, ValueSays lio p.1 p.2) :
      ValueSays lio (.elem "array" as cs) (.array (ps.map (·.2)))
  | dict {as cs d} (ps : List ((List (String × Str) × List Node × Str) × Node × PVal L))
      (hm : matter cs = ps.flatMap fun p => [.elem "key" p.1.1 p.1.2.1, p.2.1]) (hk : ∀ p ∈ ps, Content p.1.2.1 p.1.2.2)
      (h : ∀ p ∈ ps, ValueSays lio p.2.1 p.2.2) (hd : DictOf (ps.map fun p => (p.1.2.2, p.2.2)) d) : ValueSays lio (.elem "dict" as cs) (.dict d)

/-- There is one thing in the lib, and it is a dictionary. -/
def LibTells (lio : LeafIO L) (e : Element) (d : Dict L) : Prop := ∃ c, matter e.children = [c] ∧ ValueSays lio c (.dict d)

/-- There is character data in the node. -/
inductive HasCdata : Node → Prop
  | here (s) : HasCdata (.cdata s)
  | child (n as cs c) (hc : c ∈ cs) (h : HasCdata c) : HasCdata (.elem n as cs)

end GP.Spec
