import Verif.Float.Core
import Mathlib.Data.Nat.Sqrt
/-!
# Square root
-/
namespace Fl
namespace Flt
variable {f : Fmt}

/-- IEEE square root (`f64::sqrt`): the float nearest to the exact root.  In units of `2^-u` the root of `V` units is
`√(V·2^u)`; half a unit is added to its integer part if the root is not an integer, so that rounding goes the same
way as for the exact root. -/
def sqrt : Flt f → Flt f
  | nan => nan
  | num s k h =>
    if k = 0 then num s k h
    else if s then nan
    else if k = f.inf then num s k h
    else
      let n := f.val k * 2 ^ f.u
      let q := Nat.sqrt n
      ofFrac f false (if q * q = n then 2 * q else 2 * q + 1) (2 ^ (f.u + 1))

end Flt
end Fl
