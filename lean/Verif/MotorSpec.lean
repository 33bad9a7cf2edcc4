import Verif.Motor
import Verif.LangSpec

/-!
Specification vocabulary for the motor program: what it may rely on, and the states it passes through.
-/

namespace Verif.Motor
open Spec

attribute [local instance] lp64

/-- the motor is at `p` and is to go to `q`, both in the range of `position_t`; three registers hold a byte. Nothing is assumed
about the other variables. -/
structure Ready (s : LState 23) (p q : Int) : Prop where
  hp : s.st motor_position = p
  hq : s.st new_position = q
  pr : 0 ≤ p ∧ p ≤ 50000
  qr : 0 ≤ q ∧ q ≤ 50000
  h1 : 0 ≤ s.st TMR1ON ∧ s.st TMR1ON ≤ 255
  h2 : 0 ≤ s.st TMR1H ∧ s.st TMR1H ≤ 255
  h3 : 0 ≤ s.st TMR1L ∧ s.st TMR1L ≤ 255

/-- started in `s`, the program is in `s'` after `k` interrupts -/
inductive Reached (s : LState 23) : Nat → LState 23 → Prop
  | run {s' : LState 23} : Ends Γ motor_run s (.ret ()) s' → Reached s 0 s'
  | turn {k : Nat} {s1 s' : LState 23} : Reached s k s1 → busy.eval Γ s1.st = .ret true → Ends Γ turn s1 (.ret ()) s' →
      Reached s (k + 1) s'

/-- the windings for the four phases (motor3.c:47-52) -/
def winding (a : Int) : Int := if a = 0 then 0x909 else if a = 1 then 0x908 else if a = 2 then 0x808 else 0x809

/-- the four output registers: the windings of the phase `a` and the low 16 bits of the compare value `w` -/
structure Regs (s : LState 23) (a w : Int) : Prop where
  con1 : s.st CCP1CON = winding a % 256
  con2 : s.st CCP2CON = winding a / 256
  high : s.st CCPR1H = w / 256 % 256
  low : s.st CCPR1L = w % 256

end Verif.Motor
