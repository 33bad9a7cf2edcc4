import Verif.Safe
import Verif.Spec

/-!
Specification vocabulary for the operators of safe types. It uses the names of operators and operand types, but
none of the functions of the model.
-/

namespace Verif.Spec

/-- the mathematical operation an arithmetic operator stands for -/
def math : Arith → Int → Int → Int
  | .add, t, u => t + u
  | .sub, t, u => t - u
  | .mul, t, u => t * u
  | .div, t, u => t.tdiv u
  | .mod, t, u => t.tmod u

/-- the mathematical relation a comparison operator stands for -/
def rel : Rel → Int → Int → Bool
  | .lt, t, u => decide (t < u)
  | .gt, t, u => decide (u < t)
  | .le, t, u => decide (t ≤ u)
  | .ge, t, u => decide (u ≤ t)
  | .eq, t, u => decide (t = u)
  | .ne, t, u => decide (t ≠ u)

/-- The value `v`, or an exception, or a program the compiler rejects; in particular no undefined behaviour, no failed
assertion and no other value. -/
def ExactOrThrows {α : Type} (o : Out α) (v : α) : Prop :=
  o = .ret v ∨ (∃ e, o = .thrown e) ∨ o = .fault .illFormed

/-- the handler of arithmetic errors is one of the pre-made ones -/
def _root_.Verif.EP.Plain (p : EP) : Prop := ∀ f, p.ae ≠ .user f

/-- not a safe literal: a built-in integer or a safe integer -/
def NotLit (T : Opd) : Prop := T.kind = .builtin ∨ T.kind = .safe

instance (T : Opd) : Decidable (NotLit T) := inferInstanceAs (Decidable (_ ∨ _))

/-- all values of the operand type are at most the maximum of `R`, and not below its minimum when `R` is signed -/
def FitsIn (R : ITy) (T : Opd) : Prop := T.hi ≤ R.max ∧ (R.signed = true → R.min ≤ T.lo)

instance (R : ITy) (T : Opd) : Decidable (FitsIn R T) := inferInstanceAs (Decidable (_ ∧ _))

/-- the arithmetic operators of C++ on built-in types -/
def builtin [Arch] : Arith → ITy → ITy → Int → Int → Out Int
  | .add => cAdd
  | .sub => cSub
  | .mul => cMul
  | .div => cDiv
  | .mod => cMod

/-- the comparison operators of C++ on built-in types -/
def builtinRel [Arch] : Rel → ITy → ITy → Int → Int → Bool
  | .lt => cLt
  | .gt => cGt
  | .le => cLe
  | .ge => cGe
  | .eq => cEq
  | .ne => cNe

/-! The C++ rules for a machine whose types have the widths `m` (as exponents), for types given by width and sign:
[conv.prom]: a type narrower than `int` becomes `int` (which can represent all its values); [expr.arith.conv]: of two
types of the same sign the wider one; else the unsigned one if it is at least as wide as the signed one, else the
signed one, which then represents all values of the unsigned one. -/

/-- integral promotion on the machine `m` -/
def cppPromoteSpec (m : CppCfg) (T : ITy) : ITy := if T.lg < m.i then ⟨true, m.i⟩ else T

/-- usual arithmetic conversions of promoted types -/
def cppConvSpec (T U : ITy) : ITy :=
  if T.signed = U.signed then (if T.lg < U.lg then U else T)
  else if T.signed then (if U.lg < T.lg then T else U)
  else (if T.lg < U.lg then U else T)

/-- the type of `t op u` for the operators that convert both operands -/
def cppSpec (m : CppCfg) (T U : ITy) : ITy := cppConvSpec (cppPromoteSpec m T) (cppPromoteSpec m U)

/-- the widths of the machine are ordered as the standard demands -/
def CppOrdered (m : CppCfg) : Prop := m.c ≤ m.s ∧ m.s ≤ m.i ∧ m.i ≤ m.l ∧ m.l ≤ m.ll

instance (m : CppCfg) : Decidable (CppOrdered m) := inferInstanceAs (Decidable (_ ∧ _ ∧ _ ∧ _))

/-- the machine has a type of this width -/
def CppListed (m : CppCfg) (T : ITy) : Prop := T.lg = m.c ∨ T.lg = m.s ∨ T.lg = m.i ∨ T.lg = m.l ∨ T.lg = m.ll

instance (m : CppCfg) (T : ITy) : Decidable (CppListed m T) := inferInstanceAs (Decidable (_ ∨ _ ∨ _ ∨ _ ∨ _))

/-- no undefined behaviour and no failed assertion -/
def NoUb {α : Type} (o : Out α) : Prop := o ≠ .fault .ub ∧ o ≠ .fault .assertFail

/-- The two outcomes agree: the same value, or an exception in both cases (with any error codes), or both are rejected by
the compiler. -/
def SameUpToCode {α : Type} (a b : Out α) : Prop := a = b ∨ ((∃ e, a = .thrown e) ∧ ∃ e, b = .thrown e)

/-- the truth function of a bitwise operator -/
def logic : Bitwise → Bool → Bool → Bool
  | .bor => (· || ·)
  | .band => (· && ·)
  | .bxor => (· ^^ ·)

/-- Operand types of `<<` for which the library decides correctly whether an error is possible: the left range contains
a positive value, and either neither range contains a negative value or the largest result overflows `R`. -/
def ShlCovered (R : ITy) (T U : Opd) : Prop :=
  0 < T.hi ∧ ((0 ≤ T.lo ∧ 0 ≤ U.lo) ∨ (0 ≤ U.hi ∧ R.max < T.hi * 2 ^ U.hi.toNat))

instance (R : ITy) (T U : Opd) : Decidable (ShlCovered R T U) := inferInstanceAs (Decidable (_ ∧ (_ ∨ _)))

/-- Operand types of `>>` for which the library decides correctly whether an error is possible: not an unsigned result
type, a left range that starts at zero and a possibly negative shift count. -/
def ShrCovered (R : ITy) (T U : Opd) : Prop := ¬ (R.signed = false ∧ U.lo < 0 ∧ T.lo = 0)

instance (R : ITy) (T U : Opd) : Decidable (ShrCovered R T U) := inferInstanceAs (Decidable (¬ (_ ∧ _ ∧ _)))

/-- the shift that is undefined in C++: by the full width of the (promoted, unsigned) left operand -/
def FullWidth [Arch] (R : ITy) (u : Int) : Prop := R.signed = false ∧ Arch.intLg ≤ R.lg ∧ u = R.bits

instance [Arch] (R : ITy) (u : Int) : Decidable (FullWidth R u) := inferInstanceAs (Decidable (_ ∧ _ ∧ _))

/-- `t << u` in the type `R` is free of the errors of shifts: negative operands, a count that is too large, lost bits -/
def ShlFree (R : ITy) (t u : Int) : Prop := u = 0 ∨ (0 < u ∧ 0 ≤ t ∧ t * 2 ^ u.toNat ≤ R.max ∧ (t = 0 → u < R.digits))

/-- `t >> u` in the type `R` is free of the errors of shifts: negative operands, a count that is too large -/
def ShrFree (R : ITy) (t u : Int) : Prop := 0 ≤ t ∧ 0 ≤ u ∧ u ≤ R.digits

instance (R : ITy) (t u : Int) : Decidable (ShlFree R t u) := inferInstanceAs (Decidable (_ ∨ (_ ∧ _ ∧ _ ∧ _)))
instance (R : ITy) (t u : Int) : Decidable (ShrFree R t u) := inferInstanceAs (Decidable (_ ∧ _ ∧ _))

end Verif.Spec
