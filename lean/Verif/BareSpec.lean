import Verif.QuietSpec

/-!
Specification vocabulary for C74: a program in which every safe type is replaced by the built-in type it stands for, and every
safe literal by a constant.
-/

namespace Verif.Spec
section
variable [Arch]

/-- the built-in type in which the values of a type are stored -/
def bareTy {N : Names} (T : PTy N) : PTy N := PTy.builtin T.opd.base

/-- the expression with built-in types -/
def bareE {N : Names} : LExpr N n → LExpr N n
  | .var i => .var i
  | .const B c => .const B c
  | .lit L => .const L.opd.base L.opd.lo
  | .bin o a b => .bin o (bareE a) (bareE b)
  | .neg a => .neg (bareE a)
  | .pos a => .pos (bareE a)
  | .cast S a => .cast (bareTy S) (bareE a)

/-- the condition with built-in types -/
def bareC {N : Names} : LCond N n → LCond N n
  | .cmp o a b => .cmp o (bareE a) (bareE b)
  | .truth a => .truth (bareE a)
  | .not a => .not (bareC a)
  | .and a b => .and (bareC a) (bareC b)
  | .or a b => .or (bareC a) (bareC b)

/-- the program with built-in types -/
def bareS {N : Names} : LStmt N n → LStmt N n
  | .skip => .skip
  | .assign i e => .assign i (bareE e)
  | .opAssign o i e => .opAssign o i (bareE e)
  | .inc i => .inc i
  | .dec i => .dec i
  | .input i => .input i
  | .output e => .output (bareE e)
  | .seq a b => .seq (bareS a) (bareS b)
  | .ite c a b => .ite (bareC c) (bareS a) (bareS b)
  | .while c a => .while (bareC c) (bareS a)
  | .tryCatch a b => .tryCatch (bareS a) (bareS b)

/-- all promotion policies are the native one -/
def Native (N : Names) : Prop := ∀ q, N.prom q = .native

/-- the left operand of a left shift is never negative, or the shift count always positive (`-1 << 0` is undefined in C++ 14, the
library returns -1) -/
def ShlBare {N : Names} (o : Op2) (T U : PTy N) : Prop := o = .shl → 0 ≤ T.opd.lo ∨ 0 < U.opd.lo

/-- Operands of a comparison: if their ranges are disjoint then the built-in comparison does not convert negative numbers to
an unsigned type. (The library then knows the answer without comparing; for other ranges it reports such a conversion.) -/
def CmpBare {N : Names} (T U : PTy N) : Prop :=
  (T.opd.hi < U.opd.lo ∨ U.opd.hi < T.opd.lo) →
    (uac T.opd.base U.opd.base).signed = true ∨ (0 ≤ T.opd.lo ∧ 0 ≤ U.opd.lo)

/-- expressions for which the replacement is covered -/
def EBare {N : Names} (Γ : Fin n → PTy N) : LExpr N n → Prop
  | .var _ => True
  | .const _ _ => True
  | .lit _ => True
  | .bin o a b => EBare Γ a ∧ EBare Γ b ∧ ∀ T U, a.ty Γ = .ret T → b.ty Γ = .ret U → ShlBare o T U
  | .neg a => EBare Γ a
  | .pos a => EBare Γ a
  | .cast _ a => EBare Γ a

/-- conditions for which the replacement is covered -/
def CBare {N : Names} (Γ : Fin n → PTy N) : LCond N n → Prop
  | .cmp _ a b => EBare Γ a ∧ EBare Γ b ∧ ∀ T U, a.ty Γ = .ret T → b.ty Γ = .ret U → CmpBare T U
  | .truth a => EBare Γ a
  | .not a => CBare Γ a
  | .and a b => CBare Γ a ∧ CBare Γ b
  | .or a b => CBare Γ a ∧ CBare Γ b

/-- programs for which the replacement is covered: also, no output of types stored in a character type (which print as
characters when they are built-in) -/
def SBare {N : Names} (Γ : Fin n → PTy N) : LStmt N n → Prop
  | .skip => True
  | .assign _ e => EBare Γ e
  | .opAssign o i e => EBare Γ e ∧ ∀ U, e.ty Γ = .ret U → ShlBare o (Γ i) U
  | .inc _ => True
  | .dec _ => True
  | .input _ => True
  | .output e => EBare Γ e ∧ ∀ T, e.ty Γ = .ret T → T.opd.base.lg ≠ 0
  | .seq a b => SBare Γ a ∧ SBare Γ b
  | .ite c a b => CBare Γ c ∧ SBare Γ a ∧ SBare Γ b
  | .while c a => CBare Γ c ∧ SBare Γ a
  | .tryCatch a b => SBare Γ a ∧ SBare Γ b

end
end Verif.Spec
