import Verif.SafeOps

/-!
Floating point values as sources: the cast of a floating point value to an integer type (checked_integer.hpp:157-179), construction
of a safe integer from it, and the operations of `checked_operation` for types without a specialisation (checked_default.hpp).
Floating point arithmetic itself is not modelled. The cast of an integer to a floating point type (checked_integer.hpp:181-214)
cannot be instantiated (it calls `F::invoke` without its template argument); safe floating point types need floating point
template arguments, which C++14 does not have.
-/

namespace Verif

/-- A floating point value: the number `m * 2 ^ e`, an infinity or a NaN. -/
inductive FVal
  | num (m e : Int)
  | inf (negative : Bool)
  | nan
  deriving DecidableEq, Repr

/-- A binary floating point type: `numeric_limits` members `digits` and `max_exponent`. -/
structure FTy where
  digits : Nat
  maxExp : Nat
  deriving DecidableEq, Repr

/-- IEEE 754 binary32 and binary64 -/
def binary32 : FTy := ⟨24, 128⟩
/-- see `binary32` -/
def binary64 : FTy := ⟨53, 1024⟩

/-- `numeric_limits<T>::max()`: all digits set, the largest exponent -/
def FTy.max (F : FTy) : FVal := .num (2 ^ F.digits - 1) ((F.maxExp : Int) - F.digits)
/-- `numeric_limits<T>::min()` of a floating point type is the smallest positive normal number. `min_exponent` is
`3 - max_exponent` for the IEEE types. -/
def FTy.min (F : FTy) : FVal := .num 1 (2 - (F.maxExp : Int))

/-- the number without its fraction; infinities and NaN have none -/
def FVal.trunc : FVal → Option Int
  | .num m e => some (if 0 ≤ e then m * 2 ^ e.toNat else m.tdiv (2 ^ (-e).toNat))
  | .inf _ => none
  | .nan => none

section
variable [Arch]

/-- [conv.fpint]: "The conversion truncates; that is, the fractional part is discarded. The behavior is undefined if the truncated
value cannot be represented in the destination type." -/
def cFloatToInt (R : ITy) (x : FVal) : Out Int :=
  match x.trunc with
  | some v => if R.In v then .ret v else .fault .ub
  | none => .fault .ub

/-- checked_integer.hpp:157-179: `cast` of a floating point value to an integer type -/
def floatCast (R : ITy) (x : FVal) : Out CR := do
  let v ← cFloatToInt R x
  .ret (.ok v)

/-- safe_base_operations.hpp:100-148 and 184-199: construction of a safe integer of type `S` from a value `x` of the floating
point type `F`. The compile time interval has the ends `numeric_limits<F>::min()` and `max()`. The handler is never called. -/
def constructFloat (S : Opd) (F : FTy) (x : FVal) : Out Int := do
  let ti : Itv CR ← Out.static do
    let l ← floatCast S.base F.min
    let u ← floatCast S.base F.max
    .ret ⟨l, u⟩
  let ri : Itv CR := ⟨.ok S.lo, .ok S.hi⟩
  if (ri.excludes (crCmp S.base) ti).toBool then .fault .illFormed
  else if (ri.includes (crCmp S.base) ti).toBool then cFloatToInt S.base x
  else do
    let rx ← floatCast S.base x
    rx.value

end

/-- checked_default.hpp:92-95 `less_than` for types without a specialisation; the operators of the type are those of the order -/
def defaultLess {α : Type} [LT α] [DecidableRel (α := α) (· < ·)] (t u : α) : T3 := T3.ofBool (decide (t < u))
/-- checked_default.hpp:96-99 `greater_than` -/
def defaultGreater {α : Type} [LT α] [DecidableRel (α := α) (· < ·)] (t u : α) : T3 := T3.ofBool (decide (u < t))
/-- checked_default.hpp:100-103 `equal`: `return t < u;` -/
def defaultEqual {α : Type} [LT α] [DecidableRel (α := α) (· < ·)] (t u : α) : T3 := T3.ofBool (decide (t < u))

end Verif
