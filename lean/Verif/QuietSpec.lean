import Verif.LangSpec
import Verif.StreamSpec

/-!
Specification vocabulary for C66: when the values that a program computes over the integers are all representable.
-/

namespace Verif.Spec
section
variable [Arch]

/-- the operator as a promotion policy sees it -/
def opName : Op2 → BinOp
  | .ar a => a.binOp
  | .bit b => b.binOp
  | .shl => .shl
  | .shr => .shr

/-- `t op u` over the integers is defined, and both operands and the result are representable in the type `R`. A left shift
is of a non-negative number (zero by less than the number of digits), or by zero; a right shift is by at most the number of
digits. -/
def OpFits (R : ITy) (o : Op2) (t u : Int) : Prop :=
  R.In t ∧ R.In u ∧ (∃ v, imath o t u = some v ∧ R.In v) ∧
  (o = .shl → u = 0 ∨ 0 < t ∨ (t = 0 ∧ u < R.digits)) ∧ (o = .shr → u ≤ R.digits)

/-- a product that is known to be zero from the types alone: one operand type has zero as its only value, and no negative
value of the other one has to be converted to an unsigned type. The other operand need not be representable. -/
def ZeroProduct (R : ITy) (T U : Opd) : Prop :=
  (T.lo = 0 ∧ T.hi = 0 ∧ (R.signed = true ∨ 0 ≤ U.lo)) ∨ (U.lo = 0 ∧ U.hi = 0 ∧ (R.signed = true ∨ 0 ≤ T.lo))

/-- `t op u` fits the type `R`: see `OpFits`; a product that is known to be zero always does -/
def TyFits (R : ITy) (o : Op2) (T U : Opd) (t u : Int) : Prop := OpFits R o t u ∨ (o = .ar .mul ∧ ZeroProduct R T U)

/-- `t op u` fits the type in which it is computed -/
def BinFits {N : Names} (o : Op2) (T U : PTy N) (t u : Int) : Prop :=
  ∀ q R, common T.pr U.pr = .ret q → (N.prom q).result (opName o) T.opd U.opd = .ret R → TyFits R o T.opd U.opd t u

/-- every operation of the expression, over the integers, fits the type in which it is computed, and every converted value the
type it is converted to -/
def EFits {N : Names} (Γ : Fin n → PTy N) (s : Fin n → Int) : LExpr N n → Prop
  | .var _ => True
  | .const _ _ => True
  | .lit _ => True
  | .bin o a b => EFits Γ s a ∧ EFits Γ s b ∧
      ∀ T U t u, a.ty Γ = .ret T → b.ty Γ = .ret U → ival s a = some t → ival s b = some u → BinFits o T U t u
  | .neg a => EFits Γ s a ∧ ∀ T t, a.ty Γ = .ret T → T.opd.kind = .safe → ival s a = some t →
      BinFits (.ar .sub) (PTy.builtin tInt) T 0 t
  | .pos a => EFits Γ s a
  | .cast S a => EFits Γ s a ∧ ∀ t, ival s a = some t → S.opd.Has t

/-- every value of `T` is less than every value of `U`, and that can be seen by converting the largest value of `T` and the
smallest of `U` to `R`: not both are too small or both too large, and no negative number is converted to an unsigned type -/
def Apart (R : ITy) (T U : Opd) : Prop :=
  T.hi < U.lo ∧ T.hi ≤ R.max ∧ R.min ≤ U.lo ∧ (R.signed = false → 0 ≤ T.hi)

/-- the type in which a promotion policy lets a comparison be carried out: the operands of `>` and `<=` are swapped -/
def cmpType (pp : PP) : Rel → Opd → Opd → Out ITy
  | .gt, T, U => pp.result .cmp U T
  | .le, T, U => pp.result .cmp U T
  | _, T, U => pp.result .cmp T U

/-- the comparison of `t` and `u` in the type `R` is possible: both are representable, or the order follows from the types alone -/
def CmpFits (R : ITy) (o : Rel) (T U : Opd) (t u : Int) : Prop :=
  (R.In t ∧ R.In u) ∨ (o ≠ .eq ∧ o ≠ .ne ∧ (Apart R T U ∨ Apart R U T))

/-- the operands of every comparison that is carried out fit the type in which they are compared -/
def CFits {N : Names} (Γ : Fin n → PTy N) (s : Fin n → Int) : LCond N n → Prop
  | .cmp o a b => EFits Γ s a ∧ EFits Γ s b ∧
      ∀ T U t u q R, a.ty Γ = .ret T → b.ty Γ = .ret U → ival s a = some t → ival s b = some u →
        common T.pr U.pr = .ret q → cmpType (N.prom q) o T.opd U.opd = .ret R → CmpFits R o T.opd U.opd t u
  | .truth a => EFits Γ s a ∧ ∀ T t, a.ty Γ = .ret T → ival s a = some t → T.isSafe = true → t = 0 ∨ t = 1
  | .not a => CFits Γ s a
  | .and a b => CFits Γ s a ∧ (icond s a = some true → CFits Γ s b)
  | .or a b => CFits Γ s a ∧ (icond s a = some false → CFits Γ s b)

/-- everything the program computes over the integers in `f` nested steps from the state `s` fits: operations their types,
values stored or read their variables -/
def SFits {N : Names} (Γ : Fin n → PTy N) : Nat → LStmt N n → IState n → Prop
  | 0, _, _ => True
  | _ + 1, .skip, _ => True
  | _ + 1, .assign i e, s => EFits Γ s.st e ∧ ∀ v, ival s.st e = some v → (Γ i).opd.Has v
  | _ + 1, .opAssign o i e, s => EFits Γ s.st e ∧
      ∀ U u, e.ty Γ = .ret U → ival s.st e = some u → BinFits o (Γ i) U (s.st i) u ∧
        ∀ v, imath o (s.st i) u = some v → (Γ i).opd.Has v
  | _ + 1, .inc i, s => BinFits (.ar .add) (Γ i) (PTy.builtin tInt) (s.st i) 1 ∧ (Γ i).opd.Has (s.st i + 1)
  | _ + 1, .dec i, s => BinFits (.ar .sub) (Γ i) (PTy.builtin tInt) (s.st i) 1 ∧ (Γ i).opd.Has (s.st i - 1)
  | _ + 1, .input i, s => ∃ neg k rest, NumberAt s.inp neg k rest ∧ (Γ i).opd.Has k ∧
      (neg = true → (Γ i).opd.base.signed = true)
  | _ + 1, .output e, s => EFits Γ s.st e
  | f + 1, .seq a b, s => SFits Γ f a s ∧ ∀ s', iexec f a s = some (some s') → SFits Γ f b s'
  | f + 1, .ite c a b, s => CFits Γ s.st c ∧ (icond s.st c = some true → SFits Γ f a s) ∧
      (icond s.st c = some false → SFits Γ f b s)
  | f + 1, .while c a, s => CFits Γ s.st c ∧
      (icond s.st c = some true → SFits Γ f a s ∧ ∀ s', iexec f a s = some (some s') → SFits Γ f (.while c a) s')
  | f + 1, .tryCatch a _, s => SFits Γ f a s

end
end Verif.Spec
