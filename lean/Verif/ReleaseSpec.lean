import Verif.PolicySpec

/-!
Specification for C97: exception policies that trap, replaced by others.
-/

namespace Verif.Spec

/-- `q` reacts like `p` to every error, except that it may reject the program (trap) where `p` does anything else -/
def TrapsFor (q p : EP) : Prop := ∀ e, dispatch q e = dispatch p e ∨ dispatch q e = .fault .illFormed

end Verif.Spec
