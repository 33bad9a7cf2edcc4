import Verif.Stream

/-!
Specification vocabulary for stream input (C37, C60, C66): when characters write a number.
-/

namespace Verif.Spec

/-- The characters start with optional white space, an optional sign (`neg`: a minus sign) and at least one digit, which
together write the number `n`; then follows `rest`, which does not start with a digit. -/
def NumberAt (buf : List Char) (neg : Bool) (n : Int) (rest : List Char) : Prop :=
  ∃ ws sg ds, buf = ws ++ (sg ++ (ds ++ rest)) ∧ (∀ c ∈ ws, isWs c = true) ∧ ds ≠ [] ∧ (∀ c ∈ ds, isDig c = true) ∧
    (∀ c, rest.head? = some c → isDig c = false) ∧
    ((neg = true ∧ sg = ['-'] ∧ n = -digitsVal ds) ∨ (neg = false ∧ (sg = [] ∨ sg = ['+']) ∧ n = digitsVal ds))

end Verif.Spec
