import Verif.LangSpec

/-!
Specification vocabulary for C99: programs whose loops count.
-/

namespace Verif.Spec
section
variable [Arch]

/-- the direction in which a variable counts -/
inductive Dir
  | up
  | down

/-- `k` is a step in this direction -/
def Dir.Step : Dir → Int → Prop
  | .up, k => 0 < k
  | .down, k => k < 0

/-- statements that write the variable `i` only by `++i`, `--i`, `i += k`, `i -= k` with constants `k`, and all in one direction -/
def Steady {N : Names} (d : Dir) (i : Fin n) : LStmt N n → Prop
  | .skip => True
  | .assign j _ => j ≠ i
  | .opAssign (.ar .add) j (.const _ k) => j = i → d.Step k
  | .opAssign (.ar .sub) j (.const _ k) => j = i → d.Step (-k)
  | .opAssign _ j _ => j ≠ i
  | .inc j => j = i → d.Step 1
  | .dec j => j = i → d.Step (-1)
  | .input j => j ≠ i
  | .output _ => True
  | .seq a b => Steady d i a ∧ Steady d i b
  | .ite _ a b => Steady d i a ∧ Steady d i b
  | .while _ a => Steady d i a
  | .tryCatch a b => Steady d i a ∧ Steady d i b

/-- statements that moreover count at least once, on every path to their normal end -/
def Counts {N : Names} (d : Dir) (i : Fin n) : LStmt N n → Prop
  | .opAssign (.ar .add) j (.const _ k) => j = i ∧ d.Step k
  | .opAssign (.ar .sub) j (.const _ k) => j = i ∧ d.Step (-k)
  | .inc j => j = i ∧ d.Step 1
  | .dec j => j = i ∧ d.Step (-1)
  | .seq a b => (Counts d i a ∧ Steady d i b) ∨ (Steady d i a ∧ Counts d i b)
  | .ite _ a b => Counts d i a ∧ Counts d i b
  | .tryCatch a b => Steady d i a ∧ Counts d i a ∧ Counts d i b
  | _ => False

/-- Every loop counts some variable in some direction. Nothing is said about the conditions. -/
def Counted {N : Names} : LStmt N n → Prop
  | .seq a b => Counted a ∧ Counted b
  | .ite _ a b => Counted a ∧ Counted b
  | .while _ a => Counted a ∧ ∃ d i, Counts d i a
  | .tryCatch a b => Counted a ∧ Counted b
  | _ => True

/-- a bound for the nested steps of a program in which no loop is run more than `W + 1` times in a row -/
def depth {N : Names} (W : Nat) : LStmt N n → Nat
  | .seq a b => 1 + max (depth W a) (depth W b)
  | .ite _ a b => 1 + max (depth W a) (depth W b)
  | .while _ a => depth W a + (W + 1)
  | .tryCatch a b => 1 + max (depth W a) (depth W b)
  | _ => 1

end
end Verif.Spec
