import Verif.LangSpec

/-!
Specification vocabulary for the example programs.
-/

namespace Verif.Spec
section
variable [Arch]

/-- Started in `s`, the program ends normally in the state `s'` if `P`; otherwise it ends with an exception. In no case is it
rejected, stuck, or undefined. -/
def Does {N : Names} {n : Nat} (Γ : Fin n → PTy N) (p : LStmt N n) (s : LState n) (P : Prop) (s' : LState n) : Prop :=
  (P → Ends Γ p s (.ret ()) s') ∧ (¬ P → ∃ x s'', Ends Γ p s (.thrown x) s'')

/-- the program does not compile -/
def Rejected {N : Names} {n : Nat} (Γ : Fin n → PTy N) (p : LStmt N n) : Prop :=
  ∀ s : LState n, Ranged Γ s.st → ∃ s', Ends Γ p s (.fault .illFormed) s'

end
end Verif.Spec
