import Verif.Lang
import Verif.CROps

/-!
The small example programs of the library, `example/example*.cpp`, in the language of `Lang.lean`, on the machine of the tests
(`int` of 32 bits, `long` and `intmax_t` of 64 bits).

Each program is generalised: the constants with which the example initialises its variables are parameters, variables of
the built-in type of the constant. A value that the example prints is stored in a variable or printed; other output and the
exception handlers that only print are left out. The value of an expression statement is stored in a variable of its type.
-/

namespace Verif.Examples

attribute [local instance] lp64

/-- the promotion policies of the examples -/
inductive Prom
  | native
  | automatic
  deriving DecidableEq, Repr

/-- the exception policies of the examples -/
inductive Exc
  | default_exception_policy
  | loose_exception_policy
  | loose_trap_policy
  deriving DecidableEq, Repr

/-- the policies of the examples -/
@[reducible] def names : Names where
  P := Prom
  E := Exc
  decP := inferInstance
  decE := inferInstance
  prom := fun
    | .native => .native
    | .automatic => .automatic
  act := fun
    | .default_exception_policy => defaultException
    | .loose_exception_policy => looseException
    | .loose_trap_policy => looseTrap

abbrev s8 : ITy := ⟨true, 0⟩
abbrev s32 : ITy := ⟨true, 2⟩
abbrev s64 : ITy := ⟨true, 3⟩
abbrev u8 : ITy := ⟨false, 0⟩
abbrev u32 : ITy := ⟨false, 2⟩

/-- `safe<T>`: safe_integer.hpp:24-35, the default policies are `native` and `default_exception_policy` -/
abbrev safe (B : ITy) : PTy names := ⟨Opd.ofSafe B, some .native, some .default_exception_policy⟩
/-- a range type with the default policies: safe_integer_range.hpp:26-55 -/
abbrev range (B : ITy) (lo hi : Int) : PTy names := ⟨Opd.range B lo hi, some .native, some .default_exception_policy⟩
/-- a built-in type -/
abbrev builtin (B : ITy) : PTy names := PTy.builtin B

abbrev add (a b : LExpr names n) : LExpr names n := .bin (.ar .add) a b
abbrev sub (a b : LExpr names n) : LExpr names n := .bin (.ar .sub) a b
abbrev mul (a b : LExpr names n) : LExpr names n := .bin (.ar .mul) a b
abbrev div (a b : LExpr names n) : LExpr names n := .bin (.ar .div) a b

/-! ### example1.cpp, example8.cpp, example11.cpp: arithmetic -/

/-- example1.cpp:16-20 without the library: the two initial values, then `x`, `y`, `z` -/
def Γ1c : Fin 5 → PTy names
  | 0 => builtin s32
  | 1 => builtin s32
  | _ => builtin s8
/-- example1.cpp:31-35: the two initial values (of type `int`), then `x`, `y`, `z` -/
def Γ1 : Fin 5 → PTy names
  | 0 => builtin s32
  | 1 => builtin s32
  | _ => safe s8
/-- example1.cpp:31-35 (and 16-20) -/
def ex1 : LStmt names 5 :=
  .seq (.assign 2 (.var 0)) (.seq (.assign 3 (.var 1)) (.assign 4 (add (.var 2) (.var 3))))

/-- example8.cpp:31-35: the two initial values, then `x`, `y`, `z` -/
def Γ8 : Fin 5 → PTy names
  | 0 => builtin s32
  | 1 => builtin s32
  | _ => safe u32
/-- example8.cpp:31-35 -/
def ex8 : LStmt names 5 :=
  .seq (.assign 2 (.var 0)) (.seq (.assign 3 (.var 1)) (.assign 4 (sub (.var 3) (.var 2))))

/-- example11.cpp:32-35: the two initial values, `x`, `y`, the value of `x + y` -/
def Γ11 : Fin 5 → PTy names
  | 0 => builtin s32
  | 1 => builtin s32
  | 2 => safe s8
  | 3 => safe s8
  | _ => range s32 (-256) 254
/-- example11.cpp:32-35 -/
def ex11 : LStmt names 5 :=
  .seq (.assign 2 (.var 0)) (.seq (.assign 3 (.var 1)) (.assign 4 (add (.var 2) (.var 3))))

/-! ### example2.cpp, example3.cpp: increment and decrement -/

/-- example2.cpp:30-32: the initial value, `x` -/
def Γ2 : Fin 2 → PTy names
  | 0 => builtin s32
  | _ => safe s32
/-- example2.cpp:30-32 -/
def ex2 : LStmt names 2 := .seq (.assign 1 (.var 0)) (.inc 1)

/-- example3.cpp:37-39: the initial value, `x` -/
def Γ3 : Fin 2 → PTy names
  | 0 => builtin s32
  | _ => safe u32
/-- example3.cpp:37-39 -/
def ex3 : LStmt names 2 := .seq (.assign 1 (.var 0)) (.dec 1)

/-! ### example4.cpp: comparison -/

/-- example4.cpp:39-47: the initial values, `a`, `b`, and which of the two lines is printed -/
def Γ4 : Fin 5 → PTy names
  | 0 => builtin s32
  | 1 => builtin s32
  | 2 => safe s32
  | 3 => safe u32
  | _ => builtin s32
/-- example4.cpp:39-47 -/
def ex4 : LStmt names 5 :=
  .seq (.assign 2 (.var 0)) (.seq (.assign 3 (.var 1))
    (.ite (.cmp .lt (.var 2) (.var 3)) (.assign 4 (.const s32 1)) (.assign 4 (.const s32 0))))

/-! ### example5.cpp, example19.cpp: ranges -/

/-- example5.cpp:34-38: a value, `i_index` -/
def Γ5 : Fin 2 → PTy names
  | 0 => builtin s32
  | _ => range u8 0 36
/-- example5.cpp:36, 38 -/
def ex5 : LStmt names 2 := .assign 1 (.var 0)

/-- example19.cpp:19-51: a value, `i`, `j`, `k` -/
def Γ19 : Fin 4 → PTy names
  | 0 => builtin s32
  | 1 => range u8 7 24
  | 2 => builtin u8
  | _ => range s32 7 279
/-- example19.cpp:24, 31, 44 -/
def ex19_assign : LStmt names 4 := .assign 1 (.var 0)
/-- example19.cpp:37 -/
def ex19_times : LStmt names 4 := .opAssign (.ar .mul) 1 (.var 0)
/-- example19.cpp:51 -/
def ex19_sum : LStmt names 4 := .assign 3 (add (.var 1) (.var 2))

/-! ### example7.cpp: a contract -/

/-- example7.cpp:33 -/
abbrev hours_t : PTy names := range u8 0 23
/-- example7.cpp:34 -/
abbrev minutes_t : PTy names := range u8 0 59
/-- example7.cpp:61-73: `hours`, `minutes`, `total_minutes` -/
def Γ7 : Fin 3 → PTy names
  | _ => builtin u32
/-- example7.cpp:63 -/
def test3 : LExpr names 3 := add (mul (.cast hours_t (.var 0)) (.const s32 60)) (.cast minutes_t (.var 1))
/-- example7.cpp:73, 81 -/
def ex7 : LStmt names 3 := .assign 2 test3

/-! ### example10.cpp, example13.cpp, example14.cpp -/

/-- example10.cpp:18-23: the arguments, `x`, `y` -/
def Γ10 : Fin 4 → PTy names
  | 0 => builtin s32
  | 1 => builtin s32
  | 2 => safe u32
  | _ => safe s8
/-- example10.cpp:18-23, 42-43 -/
def ex10 : LStmt names 4 :=
  .seq (.assign 2 (.var 0)) (.seq (.assign 3 (.var 1)) (.output (mul (.var 2) (.var 3))))

/-- example13.cpp:33-35, example14.cpp:33-36: the initial values, `x`, `y` -/
def Γ13 : Fin 4 → PTy names
  | 0 => builtin s32
  | 1 => builtin s32
  | _ => safe s32
/-- example13.cpp:33-35, example14.cpp:33-36 -/
def ex13 : LStmt names 4 :=
  .seq (.assign 2 (.var 0)) (.seq (.assign 3 (.var 1)) (.output (div (.var 2) (.var 3))))

/-! ### example16.cpp, example17.cpp, example18.cpp: conversion to a built-in parameter -/

/-- example16.cpp:10-20: the initial value, `y`, the parameter `i` -/
def Γ16 : Fin 3 → PTy names
  | 0 => builtin s64
  | 1 => safe s64
  | _ => builtin s32
/-- example16.cpp:19-20 -/
def ex16 : LStmt names 3 := .seq (.assign 1 (.var 0)) (.assign 2 (.var 1))

/-- a safe type with `loose_trap_policy`, as in example17.cpp:15, example81.cpp:12-16 and (automatic) example82.cpp:14-18 -/
abbrev trapping (q : Prom) (T : Opd) : PTy names := ⟨T, some q, some .loose_trap_policy⟩

/-- example17.cpp:11-21: `y`, the parameter `i` -/
def Γ17 : Fin 2 → PTy names
  | 0 => trapping .native (Opd.ofSafe s64)
  | _ => builtin u8
/-- example17.cpp:21 -/
def ex17 : LStmt names 2 := .assign 1 (.var 0)

/-- example18.cpp:16-22, example83.cpp:26-27, for a value stored in the type `B` (see `signedLit`) -/
abbrev literal (B : ITy) (k : Int) : PTy names := ⟨litTy B k true, some .native, some .loose_trap_policy⟩
/-- example18.cpp:12: the parameter `i` -/
def Γ18 : Fin 1 → PTy names
  | _ => builtin s32
/-- example18.cpp:22-23, for a literal with the value `k` -/
def ex18 (B : ITy) (k : Int) : LStmt names 1 := .assign 0 (.lit (literal B k))

/-! ### example6.cpp: input -/

/-- example6.cpp:21 without the library: `x`, `y` -/
def Γ6c : Fin 2 → PTy names
  | _ => builtin s32
/-- example6.cpp:36: `x`, `y` -/
def Γ6 : Fin 2 → PTy names
  | _ => safe s32
/-- example6.cpp:39-40 (and 22-23) -/
def ex6 : LStmt names 2 :=
  .seq (.input 0) (.seq (.input 1) (.seq (.output (.var 0)) (.output (.var 1))))

/-! ### example81.cpp to example84.cpp -/

/-- example81.cpp:20-22: `x`, `y`, `z` -/
def Γ81 : Fin 3 → PTy names
  | _ => trapping .native (Opd.ofSafe s32)
/-- example81.cpp:22 -/
def ex81 : LStmt names 3 := .assign 2 (add (.var 0) (.var 1))

/-- example82.cpp:22-26: `x`, `y`, the value of `x + y` -/
def Γ82 : Fin 3 → PTy names
  | 2 => trapping .automatic (Opd.range s64 (-4294967296) 4294967294)
  | _ => trapping .automatic (Opd.ofSafe s32)
/-- example82.cpp:26 -/
def ex82 : LStmt names 3 := .assign 2 (add (.var 0) (.var 1))

/-- example83.cpp:18-23 `z` -/
def Γ83 : Fin 1 → PTy names
  | _ => trapping .native (Opd.range s8 (-24) 82)
/-- example83.cpp:35-40, for literals with the values `a` and `b` -/
def ex83 (a b : Int) : LStmt names 1 := .assign 0 (add (.lit (literal s8 a)) (.lit (literal s8 b)))

/-- example84.cpp:20-33: `safe_t` and `input_safe_t` are the same type -/
abbrev safe_t84 : PTy names := ⟨Opd.range s8 (-24) 82, some .native, some .loose_exception_policy⟩
/-- example84.cpp:36-46: `x`, `y`, `z`, the value of `x - y` -/
def Γ84 : Fin 4 → PTy names
  | 2 => ⟨Opd.range s32 (-48) 164, some .native, some .loose_exception_policy⟩
  | 3 => ⟨Opd.range s32 (-106) 106, some .native, some .loose_exception_policy⟩
  | _ => safe_t84
/-- example84.cpp:37-40 -/
def f84 : LStmt names 4 := .seq (.assign 2 (add (.var 0) (.var 1))) (.assign 3 (sub (.var 0) (.var 1)))
/-- example84.cpp:49 -/
def read84 : LStmt names 4 := .seq (.input 0) (.input 1)

/- the ranged types are those that the alias templates of `safe_integer_range.hpp` and `safe_integer_literal.hpp` name -/
example : unsignedRange 0 36 = .ret (Γ5 1).opd := by decide +kernel
example : unsignedRange 7 24 = .ret (Γ19 1).opd := by decide +kernel
example : unsignedRange 0 23 = .ret hours_t.opd ∧ unsignedRange 0 59 = .ret minutes_t.opd := by decide +kernel
example : signedRange (-24) 82 = .ret safe_t84.opd ∧ signedRange (-24) 82 = .ret (Γ83 0).opd := by decide +kernel
example : signedLit 97 true = .ret (literal s8 97).opd := by decide +kernel
example : signedLit 10 true = .ret (literal s8 10).opd ∧ signedLit 67 true = .ret (literal s8 67).opd := by decide +kernel
/- the variables that hold the value of an expression have its type -/
example : pBinTy (.ar .add) (Γ11 2) (Γ11 3) = .ret (Γ11 4) := by decide +kernel
example : pBinTy (.ar .add) (Γ19 1) (Γ19 2) = .ret (Γ19 3) := by decide +kernel
example : pBinTy (.ar .add) (Γ82 0) (Γ82 1) = .ret (Γ82 2) := by decide +kernel
example : pBinTy (.ar .add) (Γ84 0) (Γ84 1) = .ret (Γ84 2) ∧ pBinTy (.ar .sub) (Γ84 0) (Γ84 1) = .ret (Γ84 3) := by
  decide +kernel

/-- example20.cpp:13-27, with extended integers of any type in place of `checked_result<unsigned int>`: `x - y`, `z = y - x`, `z + z` -/
def ex20 (R : ITy) (x y : Int) : Out (CR × CR × CR) := do
  let d ← crSub R (.ok x) (.ok y)
  let z ← crSub R (.ok y) (.ok x)
  let w ← crAdd R z z
  .ret (d, z, w)

end Verif.Examples
