import Verif.Motor2
import Verif.LangSpec

/-!
Specification vocabulary for the first safe version of the motor program: what it may rely on, and the distances it can go.
-/

namespace Verif.Motor2
open Spec

attribute [local instance] lp64

/-- the motor is at `p` and is to go to `q`; every variable holds a value of its type and the two timer registers are zero, as
they are in `example92.cpp`. Nothing else is assumed. -/
structure Ready (s : LState 30) (p q : Int) : Prop where
  hp : s.st motor_pos = p
  hq : s.st m = q
  typed : ∀ i, (Γ i).opd.Has (s.st i)
  high : s.st TMR1H = 0
  low : s.st TMR1L = 0

/-- the distances at which the program gets to its target -/
def Reaches (n : Int) : Prop := (1 ≤ n ∧ n ≤ 220) ∨ n = 222 ∨ n = 437 ∨ (439 ≤ n ∧ n ≤ 6275)

instance (n : Int) : Decidable (Reaches n) := inferInstanceAs (Decidable (_ ∨ _ ∨ _ ∨ _))

end Verif.Motor2
