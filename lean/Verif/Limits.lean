import Verif.Safe

/-!
The members of `numeric_limits` of safe types that are inherited from the stored type: safe_base.hpp:289-310
(`class numeric_limits<safe_base<T, Min, Max, P, E>> : public std::numeric_limits<T>`), safe_integer_literal.hpp:229-256.
`min`, `max` and `lowest` are in Safe.lean.
-/

namespace Verif

/-- `numeric_limits<T>::is_signed` -/
def limSigned (T : Opd) : Bool := T.base.signed
/-- `numeric_limits<T>::digits` -/
def limDigits (T : Opd) : Nat := T.base.digits
/-- `numeric_limits<T>::is_modulo`: true for the unsigned built-in types, false for the signed ones -/
def limModulo (T : Opd) : Bool := !T.base.signed
/-- `numeric_limits<T>::digits10`: the whole number below `digits * log10 2`; 643/2136 is the fraction that implementations of the standard library
use (C87_digits10 shows that it has the meaning given by the standard) -/
def limDigits10 (T : Opd) : Nat := T.base.digits * 643 / 2136

end Verif
