import Verif.Checked

/-!
Independent specification vocabulary used in the property theorems. It uses the types of the model
(`ITy`, `CR`, `Err`) but none of its functions.
-/

namespace Verif.Spec

/-- Bit `i` of the (infinite) two's complement representation of an integer. -/
def bit (v : Int) (i : Nat) : Bool := decide ((v / 2 ^ i) % 2 = 1)

/-- What an exact-or-report operation must return when its mathematical result is `v` and the
allowed range is `[lo, hi]`. -/
def exactOr (lo hi v : Int) : CR :=
  if hi < v then .err .positive_overflow_error
  else if v < lo then .err .negative_overflow_error
  else .ok v

/-- The checked_result `c` (of type `R`) soundly describes the integer `x`: a value describes itself, the
overflow markers describe every integer beyond the range on their side, any other error describes every
integer. -/
def Describes (R : ITy) : CR → Int → Prop
  | .ok v, x => R.In v ∧ x = v
  | .err .positive_overflow_error, x => R.max < x
  | .err .negative_overflow_error, x => x < R.min
  | .err .success, _ => False
  | .err _, _ => True

instance (R : ITy) (c : CR) (x : Int) : Decidable (Describes R c x) := by
  unfold Describes; split <;> infer_instance

/-- Like `Describes`, but the overflow markers may also stand for the extreme value of the range itself. -/
def Near (R : ITy) : CR → Int → Prop
  | .ok v, x => R.In v ∧ x = v
  | .err .positive_overflow_error, x => R.max ≤ x
  | .err .negative_overflow_error, x => x ≤ R.min
  | .err .success, _ => False
  | .err _, _ => True

/-- Multiplication by a power of two with any integer exponent, rounding towards zero. -/
def scale (t u : Int) : Int := if 0 ≤ u then t * 2 ^ u.toNat else t.tdiv (2 ^ (-u).toNat)

/-- The checked_result `c` is a sound lower bound of the integer `x`: a negative overflow marker stands for
minus infinity, a positive overflow marker claims that `x` is beyond the range, other errors claim
nothing. -/
def LowerOk (R : ITy) : CR → Int → Prop
  | .ok v, x => v ≤ x
  | .err .negative_overflow_error, _ => True
  | .err .positive_overflow_error, x => R.max < x
  | .err .success, _ => False
  | .err _, _ => True

/-- The checked_result `c` is a sound upper bound of the integer `x`. -/
def UpperOk (R : ITy) : CR → Int → Prop
  | .ok v, x => x ≤ v
  | .err .negative_overflow_error, x => x < R.min
  | .err .positive_overflow_error, _ => True
  | .err .success, _ => False
  | .err _, _ => True

instance (R : ITy) (c : CR) (x : Int) : Decidable (LowerOk R c x) := by
  unfold LowerOk; split <;> infer_instance
instance (R : ITy) (c : CR) (x : Int) : Decidable (UpperOk R c x) := by
  unfold UpperOk; split <;> infer_instance

/-- An end point as the library makes them: an ordinary value is a value of the type, and the artificial error
code `success` does not occur. -/
def Proper (R : ITy) : CR → Prop
  | .ok v => R.In v
  | .err e => e ≠ .success

instance (R : ITy) (c : CR) : Decidable (Proper R c) := by
  unfold Proper; split <;> infer_instance

/-- `x` lies in the interval of checked results with ends `l` and `u`. -/
def Between (R : ITy) (l u : CR) (x : Int) : Prop := LowerOk R l x ∧ UpperOk R u x

instance (R : ITy) (l u : CR) (x : Int) : Decidable (Between R l u x) :=
  inferInstanceAs (Decidable (_ ∧ _))

/-- Ends of an interval that are not markers of the wrong side: the lower end is no positive overflow and the upper
end no negative overflow. -/
def Sided (R : ITy) (l u : CR) : Prop :=
  Proper R l ∧ Proper R u ∧ l ≠ .err .positive_overflow_error ∧ u ≠ .err .negative_overflow_error

instance (R : ITy) (l u : CR) : Decidable (Sided R l u) :=
  inferInstanceAs (Decidable (_ ∧ _ ∧ _ ∧ _))

/-- a value or an overflow marker -/
def Definite (c : CR) : Prop :=
  (∃ v, c = .ok v) ∨ c = .err .positive_overflow_error ∨ c = .err .negative_overflow_error

/-- What converting the integer `x` to the type `R` must give: the same value if `R` has it, otherwise an error:
`domain_error` for a negative number that is to become unsigned, else overflow on the side of `x`. -/
def castTo (R : ITy) (x : Int) : CR :=
  if R.signed = false ∧ x < 0 then .err .domain_error else exactOr R.min R.max x

/-- A result as a throwing policy delivers it: the value, or an exception with the error code. -/
def orThrow : CR → Out Int
  | .ok v => .ret v
  | .err e => .thrown e

/-- What a binary operator computed in the type `R` must do with a throwing policy: convert the operands, then the
exact result `v`; the first of these that `R` cannot represent is thrown. -/
def exactIn (R : ITy) (t u v : Int) : Out Int :=
  match castTo R t, castTo R u with
  | .err e, _ => .thrown e
  | .ok _, .err e => .thrown e
  | .ok _, .ok _ => orThrow (exactOr R.min R.max v)

/-- What `/` computed in the type `R` must do with a throwing policy: convert the operands, report a zero divisor, then
the truncated quotient or overflow. -/
def quotIn (R : ITy) (t u : Int) : Out Int :=
  match castTo R t, castTo R u with
  | .err e, _ => .thrown e
  | .ok _, .err e => .thrown e
  | .ok _, .ok _ =>
    if u = 0 then .thrown .domain_error
    else if R.max < t.tdiv u then .thrown .positive_overflow_error
    else .ret (t.tdiv u)

/-- What `%` computed in the type `R` must do with a throwing policy. -/
def remIn (R : ITy) (t u : Int) : Out Int :=
  match castTo R t, castTo R u with
  | .err e, _ => .thrown e
  | .ok _, .err e => .thrown e
  | .ok _, .ok _ => if u = 0 then .thrown .domain_error else .ret (t.tmod u)

/-- What a comparison carried out in the type `R` must do with a throwing policy: the first operand that `R` cannot
represent is thrown, otherwise the answer is `b`. -/
def cmpIn (R : ITy) (t u : Int) (b : Bool) : Out Bool :=
  match castTo R t, castTo R u with
  | .err e, _ => .thrown e
  | .ok _, .err e => .thrown e
  | .ok _, .ok _ => .ret b

end Verif.Spec
