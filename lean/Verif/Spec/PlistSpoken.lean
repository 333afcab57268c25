import Verif.Spec.Plist
import Verif.Spec.Spoken
/-!
# What is heard of any dictionary
-/
open Fl
namespace GP.Spec
open Plist
variable {L : Type}

/-- What every value in memory is: integers are of 64 bits, and no key is there twice. -/
inductive Holdable : PVal L → Prop
  | str (s) : Holdable (.str s)
  | int (i) (h : -(2 ^ 63) ≤ i) (h' : i < 2 ^ 64) : Holdable (.int i)
  | real (x) : Holdable (.real x)
  | bool (b) : Holdable (.bool b)
  | leaf (x) : Holdable (.leaf x)
  | array (l) (h : ∀ v ∈ l, Holdable v) : Holdable (.array l)
  | dict (l) (hn : (l.map (·.1)).Nodup) (h : ∀ e ∈ l, Holdable e.2) : Holdable (.dict l)

mutual
/-- The value with line feeds for all ends of lines, in every string and every key. -/
def unixVal : PVal L → PVal L
  | .str s => .str (unix s)
  | .int i => .int i
  | .real x => .real x
  | .bool b => .bool b
  | .leaf x => .leaf x
  | .array l => .array (unixVals l)
  | .dict l => .dict (unixDict l)

def unixVals : List (PVal L) → List (PVal L)
  | [] => []
  | v :: l => unixVal v :: unixVals l

def unixDict : Dict L → Dict L
  | [] => []
  | (k, v) :: l => (unix k, unixVal v) :: unixDict l
end

end GP.Spec
