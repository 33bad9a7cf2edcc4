import Verif.Lang

/-!
Specification for C91: exception policies, the handlers written by users included, seen through what a call of a handler
does; and the same program with other exception policies.
-/

namespace Verif.Spec
section
variable [Arch]

omit [Arch] in
/-- the two policies react alike to every error: both return, both throw, or both do not compile -/
def Alike (p q : EP) : Prop := ∀ e, dispatch p e = dispatch q e

omit [Arch] in
/-- `q` is stricter than `p`: it reacts like `p` to every error, except that it may throw where `p` returns -/
def Stricter (q p : EP) : Prop := ∀ e, dispatch q e = dispatch p e ∨ dispatch q e = .thrown e ∧ dispatch p e = .ret ()

/-- the policy classes of a program with other meanings of the exception policies -/
def underN (N : Names) (a : N.E → EP) : Names := { N with act := a }

/-- a type of a program, with other meanings of the exception policies -/
def underT {N : Names} (a : N.E → EP) (T : PTy N) : PTy (underN N a) := ⟨T.opd, T.pr, T.ex⟩

/-- an expression with other meanings of the exception policies -/
def underE {N : Names} (a : N.E → EP) : LExpr N n → LExpr (underN N a) n
  | .var i => .var i
  | .const B c => .const B c
  | .lit L => .lit (underT a L)
  | .bin o x y => .bin o (underE a x) (underE a y)
  | .neg x => .neg (underE a x)
  | .pos x => .pos (underE a x)
  | .cast S x => .cast (underT a S) (underE a x)

/-- a condition with other meanings of the exception policies -/
def underC {N : Names} (a : N.E → EP) : LCond N n → LCond (underN N a) n
  | .cmp o x y => .cmp o (underE a x) (underE a y)
  | .truth x => .truth (underE a x)
  | .not c => .not (underC a c)
  | .and c d => .and (underC a c) (underC a d)
  | .or c d => .or (underC a c) (underC a d)

/-- a program with other meanings of the exception policies; nothing else is changed -/
def underS {N : Names} (a : N.E → EP) : LStmt N n → LStmt (underN N a) n
  | .skip => .skip
  | .assign i e => .assign i (underE a e)
  | .opAssign o i e => .opAssign o i (underE a e)
  | .inc i => .inc i
  | .dec i => .dec i
  | .input i => .input i
  | .output e => .output (underE a e)
  | .seq x y => .seq (underS a x) (underS a y)
  | .ite c x y => .ite (underC a c) (underS a x) (underS a y)
  | .while c x => .while (underC a c) (underS a x)
  | .tryCatch x y => .tryCatch (underS a x) (underS a y)

end
end Verif.Spec
