import Verif.Expr
import Verif.SafeSpec

/-!
Specification vocabulary for expressions and programs: mathematical values, and which expressions are covered.
-/

namespace Verif.Spec

/-- the mathematical value of an expression over the integers; none if it divides by zero -/
def mval (s : Fin n → Int) : Expr n → Option Int
  | .var i => some (s i)
  | .const _ k => some k
  | .lit L => some L.lo
  | .bin o a b =>
    match mval s a, mval s b with
    | some x, some y => if (o = .div ∨ o = .mod) ∧ y = 0 then none else some (math o x y)
    | _, _ => none
  | .neg a => (mval s a).map (- ·)
  | .pos a => mval s a

/-- a built-in constant or literal (possibly with a sign `+`), the only operands that are not safe integers -/
def IsConst : Expr n → Prop
  | .const _ _ => True
  | .lit _ => True
  | .pos a => IsConst a
  | _ => False

/-- Expressions built from safe variables, constants and literals with the operators `ops`, in which every operator has an
operand that is not just a constant. -/
def SafeExpr [Arch] (ops : Arith → Prop) : Expr n → Prop
  | .var _ => True
  | .const B c => B.Ok ∧ B.In c
  | .lit L => L.Wf ∧ L.kind ≠ .safe ∧ L.kind ≠ .builtin
  | .bin o a b => ops o ∧ SafeExpr ops a ∧ SafeExpr ops b ∧ ¬ (IsConst a ∧ IsConst b)
  | .neg a => SafeExpr ops a ∧ ¬ IsConst a
  | .pos a => SafeExpr ops a

/-- the operators `+`, `-`, `*` -/
def Linear (o : Arith) : Prop := o = .add ∨ o = .sub ∨ o = .mul

/-- the operators for which the library is exact under the promotion policy: with native promotion also division -/
def Covered (pp : PP) (o : Arith) : Prop := Linear o ∨ (pp = .native ∧ o = .div)

/-- all variables are of safe types and hold values of their ranges -/
def GoodTypes [Arch] (c : Ctx n) : Prop := ∀ i, (c.Γ i).Wf ∧ (c.Γ i).kind = .safe
/-- the range invariant of a store -/
def InRange [Arch] (c : Ctx n) (s : Fin n → Int) : Prop := ∀ i, (c.Γ i).Has (s i)

/-- Statements over covered expressions. -/
def SafeStmt [Arch] (ops : Arith → Prop) : Stmt n → Prop
  | .assign _ e => SafeExpr ops e
  | .opAssign o _ e => ops o ∧ SafeExpr ops e
  | .inc _ => True
  | .dec _ => True

/-- the variable a statement changes -/
def target : Stmt n → Fin n
  | .assign i _ => i
  | .opAssign _ i _ => i
  | .inc i => i
  | .dec i => i

/-- the mathematical value that a statement gives to its variable; none if it divides by zero -/
def newValue (s : Fin n → Int) : Stmt n → Option Int
  | .assign _ e => mval s e
  | .opAssign o i e => mval s (.bin o (.var i) e)
  | .inc i => some (s i + 1)
  | .dec i => some (s i - 1)

end Verif.Spec
