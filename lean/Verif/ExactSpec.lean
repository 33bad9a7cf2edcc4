import Verif.SafeSpec

/-!
Vocabulary for properties C75, C76 and C78 (where exactly the code deviates): an operator on extended integers is right at given
operands when its outcome describes the mathematical result for every pair of integers the operands stand for.
Nothing here mentions the code.
-/

namespace Verif.Spec

/-- The operator `op` is right at the operand `t`: whatever integer `t` stands for, the outcome describes `f` of it. -/
def Right1 (R : ITy) (op : CR → Out CR) (f : Int → Int) (t : CR) : Prop :=
  ∀ x, Describes R t x → ∃ c, op t = .ret c ∧ Describes R c (f x)

/-- The operator `op` is right at the operands `t`, `u`: whatever integers (in the domain of the operation) they stand
for, the outcome describes `f` of these integers. -/
def Right2 (R : ITy) (op : CR → CR → Out CR) (dom : Int → Prop) (f : Int → Int → Int) (t u : CR) : Prop :=
  ∀ x y, Describes R t x → Describes R u y → dom y → ∃ c, op t u = .ret c ∧ Describes R c (f x y)

/-- The same, where an overflow marker in the outcome may also stand for the extreme value of the range itself (C81). -/
def Right2Near (R : ITy) (op : CR → CR → Out CR) (f : Int → Int → Int) (t u : CR) : Prop :=
  ∀ x y, Describes R t x → Describes R u y → ∃ c, op t u = .ret c ∧ Near R c (f x y)

/-- "something below the range" -/
abbrev below : CR := .err .negative_overflow_error
/-- "something above the range" -/
abbrev above : CR := .err .positive_overflow_error

/-! ### operators of safe types under native promotion (C76)

`R` is the type the operator is computed in. -/

/-- A shift did what it says: the exact value and the count (for `>>` also the value shifted) is not negative, an exception,
or a program that does not compile. -/
def ShlRight (o : Out Int) (t u : Int) : Prop :=
  (o = .ret (t * 2 ^ u.toNat) ∧ 0 ≤ u) ∨ (∃ e, o = .thrown e) ∨ o = .fault .illFormed

/-- see `ShlRight` -/
def ShrRight (o : Out Int) (t u : Int) : Prop :=
  (o = .ret (t / 2 ^ u.toNat) ∧ 0 ≤ u ∧ 0 ≤ t) ∨ (∃ e, o = .thrown e) ∨ o = .fault .illFormed

/-- A remainder did what it says: the exact value and the divisor is not zero, an exception, or a program that does not
compile. -/
def RemRight (o : Out Int) (t u : Int) : Prop :=
  (o = .ret (t.tmod u) ∧ u ≠ 0) ∨ (∃ e, o = .thrown e) ∨ o = .fault .illFormed

/-- the operand types of `<<` for which no check is made at run time: the largest count takes neither the largest nor the
smallest value out of `R`, where negative counts that `R` cannot hold are overlooked if the left range starts at zero -/
def ShlUnchecked (R : ITy) (T U : Opd) : Prop :=
  (R.signed = true ∨ 0 ≤ U.lo ∨ T.lo = 0) ∧ scale T.hi U.hi ≤ R.max ∧
  ¬ (T.lo < 0 ∧ 0 < U.hi ∧ scale T.lo U.hi ≤ R.min)

instance (R : ITy) (T U : Opd) : Decidable (ShlUnchecked R T U) := inferInstanceAs (Decidable (_ ∧ _ ∧ _))

/-- The values for which an unchecked `<<` goes wrong: a negative value, a negative count, or - only possible if zero
is the only value - a count that is too large after conversion to `R`. -/
def ShlWrong (R : ITy) (T U : Opd) (t u : Int) : Prop :=
  ShlUnchecked R T U ∧ (t < 0 ∨ u < 0 ∨ (T.lo = 0 ∧ T.hi = 0 ∧ ¬ (0 ≤ conv R u ∧ conv R u < R.bits)))

instance (R : ITy) (T U : Opd) (t u : Int) : Decidable (ShlWrong R T U t u) := inferInstanceAs (Decidable (_ ∧ _))

/-- `>>` with such operand types does not compile: an end of the range of counts is the full width -/
def ShrRejected (R : ITy) (T U : Opd) : Prop :=
  R.signed = false ∧ 0 < T.hi ∧ (U.lo = R.bits ∨ U.hi = R.bits)

instance (R : ITy) (T U : Opd) : Decidable (ShrRejected R T U) := inferInstanceAs (Decidable (_ ∧ _ ∧ _))

/-- The values for which `>>` goes wrong, in an unsigned type: a count equal to the full width, or a negative count when
the left range starts at zero and no count exceeds the width. -/
def ShrWrong (R : ITy) (T U : Opd) (u : Int) : Prop :=
  R.signed = false ∧ ¬ ShrRejected R T U ∧ (u = R.bits ∨ (u < 0 ∧ T.lo = 0 ∧ U.hi ≤ R.bits))

instance (R : ITy) (T U : Opd) (u : Int) : Decidable (ShrWrong R T U u) := inferInstanceAs (Decidable (_ ∧ _ ∧ _))

/-- The values for which `%` goes wrong, in a signed type: the minimum by the minimum if the range of the divisor reaches
zero, by -1 if it does not. -/
def RemWrong (R : ITy) (U : Opd) (t u : Int) : Prop :=
  R.signed = true ∧ t = R.min ∧ ((u = R.min ∧ 0 ≤ U.hi) ∨ (u = -1 ∧ U.hi < 0))

instance (R : ITy) (U : Opd) (t u : Int) : Decidable (RemWrong R U t u) := inferInstanceAs (Decidable (_ ∧ _ ∧ _))

/-! ### quotients, with any promotion policy (C76)

`R` is the type that the policy gives the result. -/

/-- A quotient did what it says, see `RemRight`. -/
def QuotRight (o : Out Int) (t u : Int) : Prop :=
  (o = .ret (t.tdiv u) ∧ u ≠ 0) ∨ (∃ e, o = .thrown e) ∨ o = .fault .illFormed

/-- The operand types of `/` for which no check is made at run time: the divisor is never zero (for an unsigned `R`: positive), and `R`
has the dividends and the quotient of the smallest dividend by the largest divisor - but if `R` has none of the (positive) divisors,
only the smallest dividend counts. -/
def DivUnchecked (R : ITy) (T U : Opd) : Prop :=
  (0 < U.lo ∨ (R.signed = true ∧ U.hi < 0)) ∧ R.In T.lo ∧ (R.max < U.lo ∨ (R.In T.hi ∧ T.lo.tdiv U.hi ≤ R.max))

instance (R : ITy) (T U : Opd) : Decidable (DivUnchecked R T U) := inferInstanceAs (Decidable (_ ∧ _ ∧ _))

/-- how large a type of the signedness of `R` must be to have the values of the type `X`, as far as there is one -/
def roomLg [Arch] (R X : ITy) : Nat := if R.signed = true ∧ X.signed = false then Nat.min Arch.maxLg (X.lg + 1) else X.lg

/-- the type in which a checked quotient is computed: of the signedness of `R`, and with room for both operand types -/
def room [Arch] (R : ITy) (T U : Opd) : ITy := ⟨R.signed, Nat.max R.lg (Nat.max (roomLg R T.base) (roomLg R U.base))⟩

/-- `t / u` does not throw: the divisor is not zero, and the check is left out or operands and quotient have room. -/
def QuotFits [Arch] (R : ITy) (T U : Opd) (t u : Int) : Prop :=
  u ≠ 0 ∧ (DivUnchecked R T U ∨ ((room R T U).In t ∧ (room R T U).In u ∧ (room R T U).In (t.tdiv u)))

/-- The values for which `/` goes wrong. Without a check: the operands are converted to `R`, and there the division is by zero,
overflows, or has another value. With the check: all is well in the type `room R T U`, but the quotient is not a value of `R`. -/
def QuotWrong [Arch] (R : ITy) (T U : Opd) (t u : Int) : Prop :=
  if DivUnchecked R T U then
    conv R u = 0 ∨ (promote R = R ∧ R.signed = true ∧ conv R t = R.min ∧ conv R u = -1) ∨
      conv R ((conv R t).tdiv (conv R u)) ≠ t.tdiv u
  else u ≠ 0 ∧ (room R T U).In t ∧ (room R T U).In u ∧ (room R T U).In (t.tdiv u) ∧ ¬ R.In (t.tdiv u)

instance [Arch] (R : ITy) (T U : Opd) (t u : Int) : Decidable (QuotWrong R T U t u) := by
  unfold QuotWrong; infer_instance

/-! ### remainders, with any promotion policy (C76) -/

/-- the compiler's estimate of `x % y` overflows: one of the numbers is the minimum of `R` (or next to it), the other one is not a
value of `R` -/
def ModClash (R : ITy) (x y : Int) : Prop := (x < R.min ∧ (y = R.min ∨ y = R.min + 1)) ∨ (R.max < x ∧ y = R.min)

instance (R : ITy) (x y : Int) : Decidable (ModClash R x y) := inferInstanceAs (Decidable (_ ∨ _))

/-- The operand types of `%` for which no check is made at run time: the divisor is never zero (for an unsigned `R`: positive, and the
dividend is not negative), and `R` has the smallest dividend or the smallest divisor, or both. Whether `R` has the other values
plays no role, but for the exception `ModClash`. -/
def ModUnchecked (R : ITy) (T U : Opd) : Prop :=
  (0 < U.lo ∨ (R.signed = true ∧ U.hi < 0)) ∧ (R.signed = true ∨ 0 ≤ T.lo) ∧ (R.In T.lo ∨ R.In U.lo) ∧
  ¬ (ModClash R T.lo U.lo ∨ ModClash R T.lo U.hi ∨ ModClash R T.hi U.lo ∨ ModClash R T.hi U.hi)

instance (R : ITy) (T U : Opd) : Decidable (ModUnchecked R T U) := inferInstanceAs (Decidable (_ ∧ _ ∧ _ ∧ _))

/-- `t % u` does not throw: the divisor is not zero, and the check is left out or the operands have room. -/
def RemFits [Arch] (R : ITy) (T U : Opd) (t u : Int) : Prop :=
  u ≠ 0 ∧ (ModUnchecked R T U ∨ ((room R T U).In t ∧ (room R T U).In u))

/-- The values for which `%` goes wrong. Without a check: the operands are converted to `R`, and there the division is by zero, its
quotient overflows, or the remainder has another value. With the check: the remainder - which is taken to be the minimum if both
operands are the minimum of the type `room R T U` - is not a value of `R` and changes when it is converted. -/
def ModWrong [Arch] (R : ITy) (T U : Opd) (t u : Int) : Prop :=
  if ModUnchecked R T U then
    conv R u = 0 ∨ (promote R = R ∧ R.signed = true ∧ conv R t = R.min ∧ conv R u = -1) ∨
      conv R ((conv R t).tmod (conv R u)) ≠ t.tmod u
  else u ≠ 0 ∧ (room R T U).In t ∧ (room R T U).In u ∧
    if R.signed = true ∧ t = (room R T U).min ∧ u = (room R T U).min then conv R t ≠ 0 else ¬ R.In (t.tmod u)

instance [Arch] (R : ITy) (T U : Opd) (t u : Int) : Decidable (ModWrong R T U t u) := by
  unfold ModWrong; infer_instance

/-! ### shifts, with any promotion policy (C76) -/

/-- The operand types of `<<` for which no check is made at run time: `R` has the ends of the left range and `ShlUnchecked` holds, or it
has only the smaller one and every count is below `R` (where an unsigned type needs the smaller one to be zero). -/
def ShlSkipped (R : ITy) (T U : Opd) : Prop :=
  R.In T.lo ∧ ((R.In T.hi ∧ ShlUnchecked R T U) ∨ (R.max < T.hi ∧ U.hi < R.min ∧ (R.signed = true ∨ T.lo = 0)))

instance (R : ITy) (T U : Opd) : Decidable (ShlSkipped R T U) := inferInstanceAs (Decidable (_ ∧ _))

/-- The values for which `<<` goes wrong, see `ShlWrong`; the shift is done in the promoted type. -/
def LeftWrong [Arch] (R : ITy) (T U : Opd) (t u : Int) : Prop :=
  ShlSkipped R T U ∧ (t < 0 ∨ u < 0 ∨ (T.lo = 0 ∧ T.hi = 0 ∧ ¬ (0 ≤ conv R u ∧ conv R u < (promote R).bits)))

instance [Arch] (R : ITy) (T U : Opd) (t u : Int) : Decidable (LeftWrong R T U t u) := inferInstanceAs (Decidable (_ ∧ _))

/-- `>>` with such operand types does not compile: an end of the range of counts is the full width, and an end of the left range is a
positive value of `R` -/
def RightRejected [Arch] (R : ITy) (T U : Opd) : Prop :=
  (FullWidth R U.lo ∨ FullWidth R U.hi) ∧ ((0 < T.lo ∧ R.In T.lo) ∨ (0 < T.hi ∧ R.In T.hi))

instance [Arch] (R : ITy) (T U : Opd) : Decidable (RightRejected R T U) := inferInstanceAs (Decidable (_ ∧ _))

/-- The operand types of `>>` for which no check is made at run time: no count is too large, and the operands are values of `R` that
are not negative; for an unsigned `R` negative counts are overlooked if the left range starts at zero, and values above `R`
if all counts are negative. -/
def ShrSkipped (R : ITy) (T U : Opd) : Prop :=
  U.hi ≤ R.digits ∧ ((0 ≤ T.lo ∧ T.hi ≤ R.max ∧ 0 ≤ U.lo) ∨
    (R.signed = false ∧ T.lo = 0 ∧ U.lo < 0 ∧ (U.hi < 0 ∨ T.hi ≤ R.max)))

instance (R : ITy) (T U : Opd) : Decidable (ShrSkipped R T U) := inferInstanceAs (Decidable (_ ∧ _))

/-- The values for which `>>` goes wrong: a count equal to the full width (if the value shifted is one of `R`), or a negative count
that is overlooked. -/
def RightWrong [Arch] (R : ITy) (T U : Opd) (t u : Int) : Prop :=
  ¬ RightRejected R T U ∧ ((FullWidth R u ∧ R.In t) ∨ (ShrSkipped R T U ∧ u < 0))

instance [Arch] (R : ITy) (T U : Opd) (t u : Int) : Decidable (RightWrong R T U t u) := inferInstanceAs (Decidable (_ ∧ _))

/-! ### bitwise operators (C78) -/

/-- The largest bit pattern of `w` bits among the values of an operand type, read as an unsigned number: all ones if -1 is
among them, else the pattern of the upper end. -/
def topPattern (w : Nat) (T : Opd) : Int := if T.lo < 0 ∧ 0 ≤ T.hi then 2 ^ w - 1 else T.hi % 2 ^ w

/-- no more than `w` bits, and their sign -/
def Within (w : Nat) (T : Opd) : Prop := - 2 ^ w ≤ T.lo ∧ T.hi < 2 ^ w

instance (w : Nat) (T : Opd) : Decidable (Within w T) := inferInstanceAs (Decidable (_ ∧ _))

/-- `|` and `^` need both operands, `&` one of them -/
def bothOr1 : Bitwise → Prop → Prop → Prop
  | .band => Or
  | _ => And

end Verif.Spec
