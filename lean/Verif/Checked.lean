import Verif.Err
import Verif.Utility
import Verif.SafeCompare

/-!
`checked_result.hpp`, `checked_integer.hpp`, `checked_default.hpp` (the `checked::` functions).
-/

namespace Verif

/-- checked_result.hpp:20-95 `checked_result<R>`: a value, or an error code (the message is dropped). -/
inductive CR
  | ok (v : Int)
  | err (e : Err)
  deriving DecidableEq, Repr

namespace CR
/-- checked_result.hpp:72-74 -/
def exception : CR → Bool
  | ok _ => false
  | err e => e != .success

/-- checked_result.hpp:83-87 conversion to the error code -/
def code : CR → Err
  | ok _ => .success
  | err e => e

/-- checked_result.hpp:77-81 conversion to the value; with an error this reads the inactive union member -/
def value : CR → Out Int
  | ok v => .ret v
  | err _ => .fault .ub
end CR

/-- checked_result.hpp:47-55: constructing a result from an error code asserts that it is not `success`. -/
def mkErr (e : Err) : Out CR := if e = .success then .fault .assertFail else .ret (.err e)

/-- The template parameter `F` of the checked operations. -/
abbrev Handler := Err → Out CR

/-- checked_result.hpp:97-106 `make_checked_result` -/
def make : Handler := mkErr

/-- safe_base_operations.hpp:85-95 `dispatch_and_return<EP, R>` -/
def dispatchAndReturn (p : EP) : Handler := fun e => do
  dispatch p e
  mkErr e

section
variable [Arch]
open SafeCompare

/-- checked_integer.hpp:57-154 `heterogeneous_checked_operation<R, Min, Max, T, F>::cast` -/
def cast (R : ITy) (mn mx : Int) (T : ITy) (h : Handler) (t : Int) : Out CR :=
  match R.signed, T.signed with
  | true, true =>
    if greaterThan T R t mx then h .positive_overflow_error
    else if lessThan T R t mn then h .negative_overflow_error
    else .ret (.ok (conv R t))
  | true, false =>
    if greaterThan T R t mx then h .positive_overflow_error
    else if lessThan T R t mn then h .positive_overflow_error
    else .ret (.ok (conv R t))
  | false, false =>
    if greaterThan T R t mx then h .positive_overflow_error
    else if lessThan T R t mn then h .positive_overflow_error
    else .ret (.ok (conv R t))
  | false, true =>
    if lessThan T R t mn then h .domain_error
    else if greaterThan T R t mx then h .positive_overflow_error
    else .ret (.ok (conv R t))

/-- errors instantiated by `cast` (compile time, for trap policies) -/
def castErrs (R T : ITy) : List Err :=
  match R.signed, T.signed with
  | true, true => [.positive_overflow_error, .negative_overflow_error]
  | true, false => [.positive_overflow_error]
  | false, false => [.positive_overflow_error]
  | false, true => [.domain_error, .positive_overflow_error]

/-- checked_default.hpp:135-143 `checked::cast<R>(t)` -/
def checkedCast (R T : ITy) (t : Int) : Out CR := cast R R.min R.max T make t

/-- checked_integer.hpp:230-275 `add` -/
def add (R : ITy) (h : Handler) (t u : Int) : Out CR :=
  let P := uac R R
  if R.signed then do
    let c1 ← if cGt R tInt u 0 then do
        let d ← cSub R R R.max u
        .ret (cGt R P t d)
      else .ret false
    if c1 then h .positive_overflow_error
    else do
      let c2 ← if cLt R tInt u 0 then do
          let d ← cSub R R R.min u
          .ret (cLt R P t d)
        else .ret false
      if c2 then h .negative_overflow_error
      else do
        let s ← cAdd R R t u
        .ret (.ok (conv R s))
  else do
    let d ← cSub R R R.max u
    if cLt P R d t then h .positive_overflow_error
    else do
      let s ← cAdd R R t u
      .ret (.ok (conv R s))

/-- checked_integer.hpp:279-324 `subtract` -/
def subtract (R : ITy) (h : Handler) (t u : Int) : Out CR :=
  let P := uac R R
  if R.signed then do
    let c1 ← if cGt R tInt u 0 then do
        let d ← cAdd R R R.min u
        .ret (cLt R P t d)
      else .ret false
    if c1 then h .negative_overflow_error
    else do
      let c2 ← if cLt R tInt u 0 then do
          let d ← cAdd R R R.max u
          .ret (cGt R P t d)
        else .ret false
      if c2 then h .positive_overflow_error
      else do
        let s ← cSub R R t u
        .ret (.ok (conv R s))
  else
    if cLt R R t u then h .negative_overflow_error
    else do
      let s ← cSub R R t u
      .ret (.ok (conv R s))

/-- checked_integer.hpp:328-363 `minus` -/
def minus (R : ITy) (h : Handler) (t : Int) : Out CR :=
  if R.signed then
    if cEq R R t R.min then h .positive_overflow_error
    else do
      let s ← cNeg R t
      .ret (.ok (conv R s))
  else
    if cGt R tInt t 0 then h .negative_overflow_error
    else .ret (.ok (conv R 0))

/-- `checked_result<R>(t * u)` as written in checked_integer.hpp:389, 406, 439, 455, 462, 470, 477 -/
def mulOk (R : ITy) (t u : Int) : Out CR := do
  let s ← cMul R R t u
  .ret (.ok (conv R s))

/-- checked_integer.hpp:371-391, unsigned, narrow enough for an `uintmax_t` intermediate -/
def multiplyUFast (R : ITy) (h : Handler) (t u : Int) : Out CR := do
  let p ← cMul tUIntMax tUIntMax (conv tUIntMax t) (conv tUIntMax u)
  if cGt (uac tUIntMax tUIntMax) R p R.max then h .positive_overflow_error
  else mulOk R t u

/-- checked_integer.hpp:392-408, unsigned, full width -/
def multiplyUSlow (R : ITy) (h : Handler) (t u : Int) : Out CR := do
  let c ← if cGt R tInt u 0 then do
      let q ← cDiv R R R.max u
      .ret (cGt R (uac R R) t q)
    else .ret false
  if c then h .positive_overflow_error
  else mulOk R t u

/-- checked_integer.hpp:411-441, signed, narrow enough for an `intmax_t` intermediate -/
def multiplySFast (R : ITy) (h : Handler) (t u : Int) : Out CR := do
  let p ← cMul tIntMax tIntMax (conv tIntMax t) (conv tIntMax u)
  if cGt (uac tIntMax tIntMax) tIntMax p (conv tIntMax R.max) then h .positive_overflow_error
  else do
    let p' ← cMul tIntMax tIntMax (conv tIntMax t) (conv tIntMax u)
    if cLt (uac tIntMax tIntMax) tIntMax p' (conv tIntMax R.min) then h .negative_overflow_error
    else mulOk R t u

/-- checked_integer.hpp:442-479, signed, full width -/
def multiplySSlow (R : ITy) (h : Handler) (t u : Int) : Out CR :=
  if cGt R tInt t 0 then
    if cGt R tInt u 0 then do
      let q ← cDiv R R R.max u
      if cGt R (uac R R) t q then h .positive_overflow_error else mulOk R t u
    else do
      let q ← cDiv R R R.min t
      if cLt R (uac R R) u q then h .negative_overflow_error else mulOk R t u
  else
    if cGt R tInt u 0 then do
      let q ← cDiv R R R.min u
      if cLt R (uac R R) t q then h .negative_overflow_error else mulOk R t u
    else do
      let c ← if cNe R tInt t 0 then do
          let q ← cDiv R R R.max t
          .ret (cLt R (uac R R) u q)
        else .ret false
      if c then h .positive_overflow_error else mulOk R t u

/-- checked_integer.hpp:482-492 `multiply`; `sizeof(R) > sizeof(uintmax_t)/2` with `sizeof = 2^lg` -/
def multiply (R : ITy) (h : Handler) (t u : Int) : Out CR :=
  let wide : Bool := decide (2 ^ R.lg > 2 ^ Arch.maxLg / 2)
  match R.signed, wide with
  | false, false => multiplyUFast R h t u
  | false, true => multiplyUSlow R h t u
  | true, false => multiplySFast R h t u
  | true, true => multiplySSlow R h t u

/-- checked_integer.hpp:497-530 `divide` -/
def divide (R : ITy) (h : Handler) (t u : Int) : Out CR :=
  if cEq R tInt u 0 then h .domain_error
  else if R.signed then
    if cEq R tInt u (-1) && cEq R R t R.min then h .positive_overflow_error
    else do
      let q ← cDiv R R t u
      .ret (.ok (conv R q))
  else do
    let q ← cDiv R R t u
    .ret (.ok (conv R q))

/-- checked_integer.hpp:535-572 `modulus` -/
def modulus (R : ITy) (h : Handler) (t u : Int) : Out CR :=
  if cEq tInt R 0 u then h .domain_error
  else if R.signed then
    if cGe R tInt u 0 then do
      let q ← cMod R R t u
      .ret (.ok (conv R q))
    else do
      let ux ← minus R make u
      if ux.exception then .ret (.ok t)
      else do
        let uv ← ux.value
        let q ← cMod R R t uv
        .ret (.ok (conv R q))
  else do
    let q ← cMod R R t u
    .ret (.ok (conv R q))

/-- checked_integer.hpp:618-629 / 645-657: the test against the bits available, then the shift.
`digits - significant_bits(t)` is computed in `unsigned int` (`int` minus `unsigned int`). -/
def leftShiftBits (R : ITy) (h : Handler) (t u : Int) : Out CR := do
  let sb ← significantBits R t
  let avail ← cSub tInt tUInt R.digits sb
  if greaterThan R tUInt u avail then h .shift_too_large
  else do
    let s ← cShl R R t u
    .ret (.ok (conv R s))

/-- checked_integer.hpp:577-691 `left_shift` -/
def leftShift (R : ITy) (h : Handler) (t u : Int) : Out CR :=
  if cEq R tInt u 0 then .ret (.ok t)
  else if cLt R tInt u 0 then h .negative_shift
  else if cGt R tInt u R.digits then h .shift_too_large
  else if R.signed then
    if cGe R tInt t 0 then leftShiftBits R h t u
    else h .negative_shift
  else leftShiftBits R h t u

/-- checked_integer.hpp:695-750 `right_shift` -/
def rightShift (R : ITy) (h : Handler) (t u : Int) : Out CR :=
  if cLt R tInt u 0 then h .negative_shift
  else if cGt R tInt u R.digits then h .shift_too_large
  else if R.signed then
    if cLt R tInt t 0 then h .negative_value_shift
    else do
      let s ← cShr R R t u
      .ret (.ok (conv R s))
  else do
    let s ← cShr R R t u
    .ret (.ok (conv R s))

/-- checked_integer.hpp:759-770 `bitwise_or`; `unsigned int > int` comparison -/
def bitwiseOr (R : ITy) (h : Handler) (t u : Int) : Out CR := do
  let a ← significantBits R t
  let b ← significantBits R u
  if cGt tUInt tInt (if a < b then b else a) R.bits then h .positive_overflow_error
  else .ret (.ok (conv R (cOr R R t u)))

/-- checked_integer.hpp:772-783 `bitwise_xor` -/
def bitwiseXor (R : ITy) (h : Handler) (t u : Int) : Out CR := do
  let a ← significantBits R t
  let b ← significantBits R u
  if cGt tUInt tInt (if a < b then b else a) R.bits then h .positive_overflow_error
  else .ret (.ok (conv R (cXor R R t u)))

/-- checked_integer.hpp:785-796 `bitwise_and` -/
def bitwiseAnd (R : ITy) (h : Handler) (t u : Int) : Out CR := do
  let a ← significantBits R t
  let b ← significantBits R u
  if cGt tUInt tInt (if b < a then b else a) R.bits then h .positive_overflow_error
  else .ret (.ok (conv R (cAnd R R t u)))

/-- checked_integer.hpp:798-807 `bitwise_not` -/
def bitwiseNot (R : ITy) (h : Handler) (t : Int) : Out CR := do
  let a ← significantBits R t
  if cGt tUInt tInt a R.bits then h .positive_overflow_error
  else .ret (.ok (conv R (cNot R t)))

end
end Verif
