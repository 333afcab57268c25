import Verif.Model.Iof
/-!
# Integers that are `f32`s
-/
namespace GP.Spec

/-- An integer of 24 bits, followed by zeros. -/
def Bits24 (i : Int) : Prop := ∃ (m : Int) (k : Nat), m.natAbs ≤ 2 ^ 24 ∧ i = m * 2 ^ k

/-- The number is a float, or such an integer. -/
def IsSingle : IOF → Prop
  | .int i _ => Bits24 i
  | .float _ => True

end GP.Spec
