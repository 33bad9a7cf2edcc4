import Verif.Float
import Mathlib.Data.Rat.Floor

/-!
What a floating point value is and what its integer part is, in terms of rational numbers (for C86).
-/

namespace Verif.Spec

/-- the number a floating point value stands for -/
def number : FVal → Option ℚ
  | .num m e => some ((m : ℚ) * (2 : ℚ) ^ e)
  | .inf _ => none
  | .nan => none

/-- the integer part of a number, towards zero -/
def wholePart (q : ℚ) : Int := if 0 ≤ q then ⌊q⌋ else ⌈q⌉

end Verif.Spec
