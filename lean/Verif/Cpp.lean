/-
C++ integer semantics used by the model (not part of /repo: this is the part of the C++ standard
that the library relies on; it belongs to the trusted base, see DESIGN.md section 1).

A typed C++ value is a mathematical `Int` paired with its static type `ITy`.
-/

namespace Verif

/-- The machine: widths of `int` and of `intmax_t`, as exponents (`width = 8 * 2^lg` bits).
`int` has at least 16 bits, `intmax_t` is at least as wide as `int` and has at most 128 bits. -/
class Arch where
  intLg : Nat
  maxLg : Nat
  int16 : 1 ≤ intLg
  intMax : intLg ≤ maxLg
  max128 : maxLg ≤ 4

/-- The usual machine: 32 bit int, 64 bit intmax_t. Only used in examples and witnesses. -/
@[reducible] def lp64 : Arch := ⟨2, 3, by decide, by decide, by decide⟩

/-- Error codes of the library; exception.hpp:34-46 (in this order). -/
inductive Err
  | success
  | positive_overflow_error
  | negative_overflow_error
  | domain_error
  | range_error
  | precision_overflow_error
  | underflow_error
  | negative_value_shift
  | negative_shift
  | shift_too_large
  | uninitialized_value
  deriving DecidableEq, Repr

/-- Ways in which a program has no meaningful result. -/
inductive Fault
  /-- undefined behaviour is executed -/
  | ub
  /-- an `assert` of the library fails -/
  | assertFail
  /-- the program does not compile (static_assert, trap policy, undefined behaviour in a constant) -/
  | illFormed
  deriving DecidableEq, Repr

/-- Outcome of evaluating a C++ expression. -/
inductive Out (α : Type) where
  | ret (a : α)
  | thrown (e : Err)
  | fault (f : Fault)
  deriving DecidableEq, Repr

namespace Out
def bind {α β : Type} (x : Out α) (f : α → Out β) : Out β :=
  match x with
  | ret a => f a
  | thrown e => thrown e
  | fault k => fault k

instance : Monad Out where
  pure := ret
  bind := bind

@[simp] theorem ret_bind {α β : Type} (a : α) (f : α → Out β) : (Out.ret a >>= f) = f a := rfl
@[simp] theorem thrown_bind {α β : Type} (e : Err) (f : α → Out β) :
    (Out.thrown e >>= f) = Out.thrown e := rfl
@[simp] theorem fault_bind {α β : Type} (k : Fault) (f : α → Out β) :
    (Out.fault k >>= f) = Out.fault k := rfl
@[simp] theorem pure_eq {α : Type} (a : α) : (pure a : Out α) = Out.ret a := rfl
@[simp] theorem map_ret {α β : Type} (f : α → β) (a : α) : (f <$> Out.ret a) = Out.ret (f a) := rfl

/-- Compile time evaluation: anything but a value makes the program ill-formed. -/
def static {α : Type} : Out α → Out α
  | ret a => ret a
  | _ => fault Fault.illFormed
end Out

/-- An integer type: signedness and width exponent (`8 * 2^lg` bits). -/
structure ITy where
  signed : Bool
  lg : Nat
  deriving DecidableEq, Repr

namespace ITy
def bits (T : ITy) : Nat := 8 * 2 ^ T.lg
/-- `numeric_limits<T>::digits` -/
def digits (T : ITy) : Nat := if T.signed then T.bits - 1 else T.bits
/-- `numeric_limits<T>::max()` -/
def max (T : ITy) : Int := 2 ^ T.digits - 1
/-- `numeric_limits<T>::min()` -/
def min (T : ITy) : Int := if T.signed then - 2 ^ T.digits else 0
/-- `x` is a value of type `T` -/
def In (T : ITy) (x : Int) : Prop := T.min ≤ x ∧ x ≤ T.max

instance (T : ITy) (x : Int) : Decidable (T.In x) := inferInstanceAs (Decidable (_ ∧ _))

/-- `make_unsigned` -/
def toUnsigned (T : ITy) : ITy := ⟨false, T.lg⟩
end ITy

def i8 : ITy := ⟨true, 0⟩
def i16 : ITy := ⟨true, 1⟩
def i32 : ITy := ⟨true, 2⟩
def i64 : ITy := ⟨true, 3⟩
def u8 : ITy := ⟨false, 0⟩
def u16 : ITy := ⟨false, 1⟩
def u32 : ITy := ⟨false, 2⟩
def u64 : ITy := ⟨false, 3⟩

section
variable [Arch]

/-- the type `int` -/
def tInt : ITy := ⟨true, Arch.intLg⟩
/-- the type `unsigned int` -/
def tUInt : ITy := ⟨false, Arch.intLg⟩
/-- `std::intmax_t` -/
def tIntMax : ITy := ⟨true, Arch.maxLg⟩
/-- `std::uintmax_t` -/
def tUIntMax : ITy := ⟨false, Arch.maxLg⟩

/-- A type that exists on the machine. -/
def ITy.Ok (T : ITy) : Prop := T.lg ≤ Arch.maxLg

instance (T : ITy) : Decidable T.Ok := inferInstanceAs (Decidable (_ ≤ _))

/-- [conv.integral]: conversion to `T`: reduction modulo `2^bits` (unsigned), two's complement
wrap-around (signed). -/
def conv (T : ITy) (x : Int) : Int :=
  if T.signed then x.bmod (2 ^ T.bits) else x % (2 ^ T.bits)

/-- [conv.prom]: types narrower than `int` promote to `int`. -/
def promote (T : ITy) : ITy := if T.lg < Arch.intLg then tInt else T

/-- [expr.arith.conv]: the usual arithmetic conversions (same width = same rank here). -/
def uac (T U : ITy) : ITy :=
  let P := promote T
  let Q := promote U
  if P.signed = Q.signed then (if P.lg < Q.lg then Q else P)
  else if P.signed then (if Q.lg < P.lg then P else Q)
  else (if P.lg < Q.lg then Q else P)

/-- Result of an arithmetic operator of type `R` whose mathematical value is `v`: undefined on signed
overflow, reduced modulo `2^bits` on unsigned types. -/
def cWrap (R : ITy) (v : Int) : Out Int :=
  if R.signed then (if R.In v then .ret v else .fault .ub) else .ret (conv R v)

/-- `t + u` on built-in types `T`, `U`; the result has type `uac T U`. -/
def cAdd (T U : ITy) (t u : Int) : Out Int :=
  cWrap (uac T U) (conv (uac T U) t + conv (uac T U) u)
/-- `t - u` -/
def cSub (T U : ITy) (t u : Int) : Out Int :=
  cWrap (uac T U) (conv (uac T U) t - conv (uac T U) u)
/-- `t * u` -/
def cMul (T U : ITy) (t u : Int) : Out Int :=
  cWrap (uac T U) (conv (uac T U) t * conv (uac T U) u)
/-- `t / u`: undefined for `u = 0` and on overflow -/
def cDiv (T U : ITy) (t u : Int) : Out Int :=
  let a := conv (uac T U) t
  let b := conv (uac T U) u
  if b = 0 then .fault .ub else cWrap (uac T U) (a.tdiv b)
/-- `t % u`: undefined for `u = 0` and when the quotient `t / u` overflows ([expr.mul]/4) -/
def cMod (T U : ITy) (t u : Int) : Out Int :=
  let a := conv (uac T U) t
  let b := conv (uac T U) u
  if b = 0 then .fault .ub
  else if (uac T U).signed ∧ ¬ (uac T U).In (a.tdiv b) then .fault .ub
  else .ret (a.tmod b)
/-- `-t`; the result has type `promote T` -/
def cNeg (T : ITy) (t : Int) : Out Int := cWrap (promote T) (- conv (promote T) t)

/-- `t << u` (C++14): result type `promote T`; undefined for a shift count that is negative or at least the
width, for a negative signed left operand, and when the value does not fit the unsigned counterpart. -/
def cShl (T U : ITy) (t u : Int) : Out Int :=
  let P := promote T
  let a := conv P t
  let b := conv (promote U) u
  if b < 0 ∨ (P.bits : Int) ≤ b then .fault .ub
  else if P.signed then
    if a < 0 then .fault .ub
    else if P.toUnsigned.In (a * 2 ^ b.toNat) then .ret (conv P (a * 2 ^ b.toNat))
    else .fault .ub
  else .ret (conv P (a * 2 ^ b.toNat))

/-- `t >> u`: result type `promote T`; undefined for a shift count that is negative or at least the width;
arithmetic shift for negative values. -/
def cShr (T U : ITy) (t u : Int) : Out Int :=
  let P := promote T
  let a := conv P t
  let b := conv (promote U) u
  if b < 0 ∨ (P.bits : Int) ≤ b then .fault .ub
  else .ret (a / 2 ^ b.toNat)

/-- Value of the bit pattern `b` in type `T`. -/
def ofBits (T : ITy) (b : BitVec T.bits) : Int := if T.signed then b.toInt else b.toNat

/-- `t | u` -/
def cOr (T U : ITy) (t u : Int) : Int :=
  ofBits (uac T U) (BitVec.ofInt _ (conv (uac T U) t) ||| BitVec.ofInt _ (conv (uac T U) u))
/-- `t & u` -/
def cAnd (T U : ITy) (t u : Int) : Int :=
  ofBits (uac T U) (BitVec.ofInt _ (conv (uac T U) t) &&& BitVec.ofInt _ (conv (uac T U) u))
/-- `t ^ u` -/
def cXor (T U : ITy) (t u : Int) : Int :=
  ofBits (uac T U) (BitVec.ofInt _ (conv (uac T U) t) ^^^ BitVec.ofInt _ (conv (uac T U) u))
/-- `~t`; the result has type `promote T` -/
def cNot (T : ITy) (t : Int) : Int :=
  ofBits (promote T) (~~~ BitVec.ofInt _ (conv (promote T) t))

/-- `t < u` -/
def cLt (T U : ITy) (t u : Int) : Bool := conv (uac T U) t < conv (uac T U) u
/-- `t > u` -/
def cGt (T U : ITy) (t u : Int) : Bool := conv (uac T U) u < conv (uac T U) t
/-- `t <= u` -/
def cLe (T U : ITy) (t u : Int) : Bool := conv (uac T U) t ≤ conv (uac T U) u
/-- `t >= u` -/
def cGe (T U : ITy) (t u : Int) : Bool := conv (uac T U) u ≤ conv (uac T U) t
/-- `t == u` -/
def cEq (T U : ITy) (t u : Int) : Bool := conv (uac T U) t = conv (uac T U) u
/-- `t != u` -/
def cNe (T U : ITy) (t u : Int) : Bool := conv (uac T U) t ≠ conv (uac T U) u

end
end Verif
