import Verif.Checked

/-!
`checked_result_operations.hpp`: operators on `checked_result<T>` ("extended integers"), and the part of
`boost/logic/tribool.hpp` they use.

Simplification: a `checked_result` holding the error code `success` cannot be constructed
(checked_result.hpp:47-55 asserts against it); the flag of the unreachable `CR.err Err.success` is
`indeterminate` here.
-/

namespace Verif

/-- boost/logic/tribool.hpp (not in /repo): three-valued (Kleene) logic -/
inductive T3
  | tt
  | ff
  | ind
  deriving DecidableEq, Repr

namespace T3
def ofBool (b : Bool) : T3 := if b then tt else ff
/-- `explicit operator bool`: true only for `true` -/
def toBool : T3 → Bool
  | tt => true
  | _ => false
/-- `operator!` -/
def not : T3 → T3
  | tt => ff
  | ff => tt
  | ind => ind
/-- `operator&&` (an overloaded function: no short circuit) -/
def and : T3 → T3 → T3
  | ff, _ => ff
  | _, ff => ff
  | tt, tt => tt
  | _, _ => ind
/-- `operator||` -/
def or : T3 → T3 → T3
  | tt, _ => tt
  | _, tt => tt
  | ff, ff => ff
  | _, _ => ind
end T3

/-- checked_result_operations.hpp:67-76 `sum_value_type::flag` -/
inductive SFlag
  | known_value
  | less_than_min
  | greater_than_max
  | indeterminate
  deriving DecidableEq, Repr

/-- checked_result_operations.hpp:76-91 `sum_value_type::to_flag` -/
def sumFlag : CR → SFlag
  | .ok _ => .known_value
  | .err .negative_overflow_error => .less_than_min
  | .err .positive_overflow_error => .greater_than_max
  | .err _ => .indeterminate

/-- one row of a table indexed by `sum_value_type` -/
def SFlag.row {α : Type} (a b c d : α) : SFlag → α
  | known_value => a
  | less_than_min => b
  | greater_than_max => c
  | indeterminate => d

section
variable [Arch]

/-- checked_result_operations.hpp:117-151, the table of `operator+` -/
def addTable : SFlag → SFlag → Err
  | .known_value => SFlag.row .success .negative_overflow_error .positive_overflow_error .range_error
  | .less_than_min =>
    SFlag.row .negative_overflow_error .negative_overflow_error .range_error .range_error
  | .greater_than_max =>
    SFlag.row .positive_overflow_error .range_error .positive_overflow_error .range_error
  | .indeterminate => SFlag.row .range_error .range_error .range_error .range_error

/-- checked_result_operations.hpp:100-159 `operator+` -/
def crAdd (R : ITy) (t u : CR) : Out CR :=
  let e := addTable (sumFlag t) (sumFlag u)
  if e = .success then do
    let a ← t.value
    let b ← u.value
    add R make a b
  else mkErr e

/-- checked_result_operations.hpp:186-220, the table of `operator-` -/
def subTable : SFlag → SFlag → Err
  | .known_value => SFlag.row .success .positive_overflow_error .negative_overflow_error .range_error
  | .less_than_min =>
    SFlag.row .negative_overflow_error .range_error .negative_overflow_error .range_error
  | .greater_than_max =>
    SFlag.row .positive_overflow_error .positive_overflow_error .range_error .range_error
  | .indeterminate => SFlag.row .range_error .range_error .range_error .range_error

/-- checked_result_operations.hpp:173-228 `operator-` -/
def crSub (R : ITy) (t u : CR) : Out CR :=
  let e := subTable (sumFlag t) (sumFlag u)
  if e = .success then do
    let a ← t.value
    let b ← u.value
    subtract R make a b
  else mkErr e

/-- checked_result_operations.hpp:230-241 unary `operator-` -/
def crNeg (R : ITy) (t : CR) : Out CR := crSub R (.ok 0) t

/-- checked_result_operations.hpp:597-638, the table of `operator<`; the first entry (two known values) is
`runtime` and never looked up here. -/
def ltTable : SFlag → SFlag → T3
  | .known_value => SFlag.row .ind .ff .tt .ind
  | .less_than_min => SFlag.row .tt .ind .tt .ind
  | .greater_than_max => SFlag.row .ff .ff .ind .ind
  | .indeterminate => SFlag.row .ind .ind .ind .ind

/-- checked_result_operations.hpp:577-654 `operator<` -/
def crLt (R : ITy) : CR → CR → T3
  | .ok a, .ok b => T3.ofBool (cLt R R a b)
  | t, u => ltTable (sumFlag t) (sumFlag u)

/-- checked_result_operations.hpp:656-663 `operator>=` -/
def crGe (R : ITy) (t u : CR) : T3 := (crLt R t u).not
/-- checked_result_operations.hpp:665-672 `operator>` -/
def crGt (R : ITy) (t u : CR) : T3 := crLt R u t
/-- checked_result_operations.hpp:674-681 `operator<=` -/
def crLe (R : ITy) (t u : CR) : T3 := (crLt R u t).not

/-- checked_result_operations.hpp:699-731, the table of `operator==` (first entry as in `ltTable`) -/
def eqTable : SFlag → SFlag → T3
  | .known_value => SFlag.row .ind .ff .ff .ind
  | .less_than_min => SFlag.row .ff .ind .ff .ind
  | .greater_than_max => SFlag.row .ff .ff .ind .ind
  | .indeterminate => SFlag.row .ind .ind .ind .ind

/-- checked_result_operations.hpp:683-751 `operator==` -/
def crEq (R : ITy) : CR → CR → T3
  | .ok a, .ok b => T3.ofBool (cEq R R a b)
  | t, u => eqTable (sumFlag t) (sumFlag u)

/-- checked_result_operations.hpp:753-760 `operator!=` -/
def crNe (R : ITy) (t u : CR) : T3 := (crEq R t u).not

/-- checked_result_operations.hpp:243-258 `product_value_type::flag` -/
inductive PFlag
  | less_than_min
  | less_than_zero
  | zero
  | greater_than_zero
  | greater_than_max
  | indeterminate
  | t_value
  | u_value
  | z_value
  deriving DecidableEq, Repr

/-- one row of a table indexed by `product_value_type` (the three temporary flags are never an index:
checked_result_operations.hpp:260-277 does not produce them) -/
def PFlag.row {α : Type} (a b c d e f : α) : PFlag → α
  | less_than_min => a
  | less_than_zero => b
  | zero => c
  | greater_than_zero => d
  | greater_than_max => e
  | _ => f

/-- checked_result_operations.hpp:260-277 `product_value_type::to_flag` -/
def prodFlag (R : ITy) (t : CR) : PFlag :=
  match t with
  | .ok _ =>
    if (crLt R t (.ok 0)).toBool then .less_than_zero
    else if (crGt R t (.ok 0)).toBool then .greater_than_zero
    else .zero
  | .err .negative_overflow_error => .less_than_min
  | .err .positive_overflow_error => .greater_than_max
  | .err _ => .indeterminate

/-- checked_result_operations.hpp:300-358, the table of `operator*` -/
def mulTable : PFlag → PFlag → PFlag
  | .less_than_min => PFlag.row .greater_than_max .greater_than_max .zero .less_than_min .less_than_min .indeterminate
  | .less_than_zero => PFlag.row .greater_than_max .greater_than_zero .zero .less_than_zero .less_than_min .indeterminate
  | .zero => PFlag.row .zero .zero .zero .zero .zero .indeterminate
  | .greater_than_zero => PFlag.row .less_than_min .less_than_zero .zero .greater_than_zero .greater_than_max .indeterminate
  | .greater_than_max => PFlag.row .less_than_min .less_than_min .zero .greater_than_max .greater_than_max .indeterminate
  | _ => PFlag.row .indeterminate .indeterminate .indeterminate .indeterminate .indeterminate .indeterminate

/-- checked_result_operations.hpp:287-379 `operator*` -/
def crMul (R : ITy) (t u : CR) : Out CR :=
  match mulTable (prodFlag R t) (prodFlag R u) with
  | .less_than_min => mkErr .negative_overflow_error
  | .zero => .ret (.ok 0)
  | .less_than_zero | .greater_than_zero => do
    let a ← t.value
    let b ← u.value
    multiply R make a b
  | .greater_than_max => mkErr .positive_overflow_error
  | .indeterminate => mkErr .range_error
  | _ => .fault .assertFail

/-- checked_result_operations.hpp:395-453, the table of `operator/` -/
def divTable : PFlag → PFlag → PFlag
  | .less_than_min => PFlag.row .indeterminate .greater_than_max .less_than_min .less_than_min .less_than_min .indeterminate
  | .less_than_zero => PFlag.row .zero .greater_than_zero .less_than_min .less_than_zero .zero .indeterminate
  | .zero => PFlag.row .zero .zero .indeterminate .zero .zero .indeterminate
  | .greater_than_zero => PFlag.row .zero .less_than_zero .greater_than_max .greater_than_zero .zero .indeterminate
  | .greater_than_max => PFlag.row .less_than_min .less_than_min .greater_than_max .greater_than_max .indeterminate .indeterminate
  | _ => PFlag.row .indeterminate .indeterminate .indeterminate .indeterminate .indeterminate .indeterminate

/-- checked_result_operations.hpp:382-474 `operator/` -/
def crDiv (R : ITy) (t u : CR) : Out CR :=
  match divTable (prodFlag R t) (prodFlag R u) with
  | .less_than_min => mkErr .negative_overflow_error
  | .zero => .ret (.ok 0)
  | .less_than_zero | .greater_than_zero => do
    let a ← t.value
    let b ← u.value
    divide R make a b
  | .greater_than_max => mkErr .positive_overflow_error
  | .indeterminate => mkErr .range_error
  | _ => .fault .assertFail

/-- checked_result_operations.hpp:490-547, the table of `operator%` -/
def modTable : PFlag → PFlag → PFlag
  | .less_than_min => PFlag.row .indeterminate .z_value .indeterminate .z_value .indeterminate .indeterminate
  | .less_than_zero => PFlag.row .t_value .greater_than_zero .indeterminate .less_than_zero .t_value .indeterminate
  | .zero => PFlag.row .zero .zero .indeterminate .zero .zero .indeterminate
  | .greater_than_zero => PFlag.row .t_value .less_than_zero .indeterminate .greater_than_zero .t_value .indeterminate
  | .greater_than_max => PFlag.row .indeterminate .u_value .indeterminate .u_value .indeterminate .indeterminate
  | _ => PFlag.row .indeterminate .indeterminate .indeterminate .indeterminate .indeterminate .indeterminate

/-- checked_result_operations.hpp:478-575 `operator%` -/
def crMod (R : ITy) (t u : CR) : Out CR :=
  match modTable (prodFlag R t) (prodFlag R u) with
  | .zero => .ret (.ok 0)
  | .less_than_zero | .greater_than_zero => do
    let a ← t.value
    let b ← u.value
    modulus R make a b
  | .indeterminate => mkErr .range_error
  | .t_value => .ret t
  | .u_value => do
    let b ← u.value
    subtract R make b 1
  | .z_value => do
    let b ← u.value
    subtract R make 1 b
  | _ => .fault .assertFail

/-- checked_result_operations.hpp:796-852, the table of `operator<<` -/
def shlTable : PFlag → PFlag → Nat
  | .less_than_min => PFlag.row 1 2 2 2 2 1
  | .less_than_zero => PFlag.row 3 4 5 6 2 1
  | .zero => PFlag.row 3 3 3 3 3 3
  | .greater_than_zero => PFlag.row 3 7 5 8 9 1
  | .greater_than_max => PFlag.row 1 9 9 9 9 1
  | _ => PFlag.row 1 1 1 1 1 1

/-- checked_result_operations.hpp:939-995, the table of `operator>>` -/
def shrTable : PFlag → PFlag → Nat
  | .less_than_min => PFlag.row 2 2 2 2 1 1
  | .less_than_zero => PFlag.row 2 4 5 6 3 1
  | .zero => PFlag.row 3 3 3 3 3 3
  | .greater_than_zero => PFlag.row 9 7 5 8 3 1
  | .greater_than_max => PFlag.row 9 9 9 9 1 1
  | _ => PFlag.row 1 1 1 1 1 1

/-- an `assert` -/
def assertThat (b : Bool) : Out Unit := if b then .ret () else .fault .assertFail

/-- checked_result_operations.hpp:783-925 `operator<<` (`left = true`) and 926-1063 `operator>>`
(`left = false`). The two call each other; `fuel` bounds the depth of the calls, running out of
fuel (never happens from 3 on: C46) is reported as undefined behaviour. -/
def crShift : Nat → Bool → ITy → CR → CR → Out CR
  | 0, _, _, _, _ => .fault .ub
  | fuel + 1, left, R, t, u =>
    let i := (if left then shlTable else shrTable) (prodFlag R t) (prodFlag R u)
    match i with
    | 1 => mkErr .range_error
    | 2 => mkErr .negative_overflow_error
    | 3 => .ret (.ok 0)
    | 4 => do
      assertThat (crLt R t (.ok 0)).toBool
      assertThat (crLt R u (.ok 0)).toBool
      let v ← crNeg R u
      crShift fuel (!left) R t v
    | 5 => .ret t
    | 6 => do
      assertThat (crLt R t (.ok 0)).toBool
      assertThat (crGt R u (.ok 0)).toBool
      let tempT ← if left then crMul R t (.ok 2) else crDiv R t (.ok 2)
      let tempU ← crSub R u (.ok 1)
      let n ← crNeg R tempT
      let s ← crShift fuel left R n tempU
      crNeg R s
    | 7 => do
      assertThat (crGt R t (.ok 0)).toBool
      assertThat (crLt R u (.ok 0)).toBool
      let v ← crNeg R u
      crShift fuel (!left) R t v
    | 8 => do
      assertThat (crGt R t (.ok 0)).toBool
      assertThat (crGt R u (.ok 0)).toBool
      let a ← t.value
      let b ← u.value
      let r ← if left then leftShift R make a b else rightShift R make a b
      if r.code = .shift_too_large then
        (if left then mkErr .positive_overflow_error else .ret (.ok 0))
      else .ret r
    | 9 => mkErr .positive_overflow_error
    | _ => .fault .assertFail

/-- checked_result_operations.hpp:783-925 `operator<<` -/
def crShl (R : ITy) (t u : CR) : Out CR := crShift 3 true R t u
/-- checked_result_operations.hpp:926-1063 `operator>>` -/
def crShr (R : ITy) (t u : CR) : Out CR := crShift 3 false R t u

/-- checked_result_operations.hpp:1065-1081 `operator|` -/
def crOr (R : ITy) (t u : CR) : Out CR :=
  if t.exception || u.exception then mkErr .range_error
  else do
    let a ← t.value
    let b ← u.value
    bitwiseOr R make a b
/-- checked_result_operations.hpp:1082-1098 `operator^` -/
def crXor (R : ITy) (t u : CR) : Out CR :=
  if t.exception || u.exception then mkErr .range_error
  else do
    let a ← t.value
    let b ← u.value
    bitwiseXor R make a b
/-- checked_result_operations.hpp:1100-1116 `operator&` -/
def crAnd (R : ITy) (t u : CR) : Out CR :=
  if t.exception || u.exception then mkErr .range_error
  else do
    let a ← t.value
    let b ← u.value
    bitwiseAnd R make a b

end
end Verif
