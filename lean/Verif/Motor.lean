import Verif.Lang

/-!
The stepper motor program of the library's tutorial, `example/example93.cpp` with `example/motor3.c`, in the language of
`Lang.lean`: an interrupt handler on ranged types with three policies, on the machine of the test (`int` of 32 bits,
`intmax_t` of 64 bits) emulating a PIC processor.

Simplified: functions are expanded where they are called, parameters are variables; an array of four constants is a choice
between four assignments; `assert(e)` is a loop that does not end unless `e`; output is left out. The enumeration is a built-in
`unsigned`. The objects `T1CONbits.TMR1ON` and `T1CON` are different words, as in the example (`bit::m_word` is a copy).
-/

namespace Verif.Motor

attribute [local instance] lp64

/-- example93.cpp:21-27 `cpp<8, 16, 16, 16, 32>` -/
def pic16 : CppCfg := ⟨0, 1, 1, 1, 2⟩

/-- example93.cpp:21, 35, 38: one promotion policy, two exception policies -/
inductive Pol
  | exception_policy
  | trap_policy
  deriving DecidableEq, Repr

/-- the policies of the program: `default_exception_policy` (exception_policies.hpp:171) and `loose_trap_policy` (136-141) -/
@[reducible] def names : Names where
  P := Unit
  E := Pol
  decP := inferInstance
  decE := inferInstance
  prom := fun _ => .cpp pic16
  act := fun
    | .exception_policy => defaultException
    | .trap_policy => looseTrap

/-- a safe type with the exception policy `e` -/
abbrev ty (e : Pol) (T : Opd) : PTy names := ⟨T, some (), some e⟩

/-- example93.cpp:68-72 -/
abbrev pic_register_t : PTy names := ty .trap_policy (Opd.ofSafe ⟨false, 0⟩)
/-- example93.cpp:79-84 -/
abbrev step_t : PTy names := ty .exception_policy (Opd.range ⟨false, 2⟩ 0 200000)
/-- example93.cpp:87-92 -/
abbrev position_t : PTy names := ty .exception_policy (Opd.range ⟨false, 1⟩ 0 50000)
/-- example93.cpp:96-100 -/
abbrev ccpr_t : PTy names := ty .exception_policy (Opd.ofSafe ⟨false, 2⟩)
/-- example93.cpp:106-111, with C_MIN and C0 of lines 51 and 47 -/
abbrev c_t : PTy names := ty .exception_policy (Opd.range ⟨false, 2⟩ 6400 1280000)
/-- example93.cpp:114-118 -/
abbrev temp_t : PTy names := ty .exception_policy (Opd.range ⟨false, 2⟩ 0 4294967295)
/-- example93.cpp:126-131 -/
abbrev phase_ix_t : PTy names := ty .trap_policy (Opd.range ⟨true, 0⟩ 0 3)
/-- example93.cpp:135-139 -/
abbrev phase_t : PTy names := ty .trap_policy (Opd.ofSafe ⟨false, 1⟩)
/-- example93.cpp:142-147 -/
abbrev direction_t : PTy names := ty .trap_policy (Opd.range ⟨true, 0⟩ (-1) 1)
/-- example93.cpp:150-154 -/
abbrev microseconds : PTy names := ty .trap_policy (Opd.ofSafe ⟨false, 2⟩)

/- the ranged types are those that the alias templates of `safe_integer_range.hpp` name -/
example : unsignedRange 0 200000 = .ret step_t.opd := by decide +kernel
example : unsignedRange 0 50000 = .ret position_t.opd := by decide +kernel
example : unsignedRange (25 * 2 ^ 8) (5000 * 2 ^ 8) = .ret c_t.opd := by decide +kernel
example : unsignedRange 0 0xffffffff = .ret temp_t.opd := by decide +kernel
example : signedRange 0 3 = .ret phase_ix_t.opd := by decide +kernel
example : signedRange (-1) 1 = .ret direction_t.opd := by decide +kernel

/-- the type of a literal without exception policy -/
abbrev litOf (T : ITy) (n : Int) : PTy names := ⟨litTy T n false, some (), none⟩

/-! ### variables -/

abbrev motor_position : Fin 23 := 0
abbrev m : Fin 23 := 1
abbrev m2 : Fin 23 := 2
abbrev d : Fin 23 := 3
abbrev i : Fin 23 := 4
abbrev c : Fin 23 := 5
abbrev ccpr : Fin 23 := 6
abbrev phase_ix : Fin 23 := 7
abbrev ramp_sts : Fin 23 := 8
abbrev phase : Fin 23 := 9
abbrev x : Fin 23 := 10
abbrev CCP1CON : Fin 23 := 11
abbrev CCP2CON : Fin 23 := 12
abbrev CCPR1H : Fin 23 := 13
abbrev CCPR1L : Fin 23 := 14
abbrev TMR1H : Fin 23 := 15
abbrev TMR1L : Fin 23 := 16
abbrev CCP1IE : Fin 23 := 17
/-- `T1CONbits.TMR1ON.m_word` -/
abbrev TMR1ON : Fin 23 := 18
/-- the parameter of `motor_run` -/
abbrev new_position : Fin 23 := 19
/-- the parameter of `to_microseconds` -/
abbrev t : Fin 23 := 20
/-- the result of `to_microseconds` -/
abbrev us : Fin 23 := 21
/-- the index of the array `ccpPhase` -/
abbrev ix : Fin 23 := 22

/-- the type of the enumeration `ramp_state` -/
abbrev enumTy : ITy := ⟨false, 2⟩

/-- motor3.c:30-40, example93.cpp:165-182 and the variables that stand for parameters -/
def Γ : Fin 23 → PTy names
  | 0 | 1 | 2 | 19 => position_t
  | 3 => direction_t
  | 4 => step_t
  | 5 => c_t
  | 6 | 20 => ccpr_t
  | 7 => phase_ix_t
  | 8 => PTy.builtin enumTy
  | 9 => phase_t
  | 10 => temp_t
  | 11 | 12 | 13 | 14 | 15 | 16 | 17 | 18 => pic_register_t
  | 21 => microseconds
  | _ => PTy.builtin ⟨true, 3⟩

/-! ### expressions -/

abbrev Ex := LExpr names 23

/-- `literal(n)` (example93.cpp:43) of stored type `T` -/
abbrev lit (T : ITy) (n : Int) : Ex := .lit (litOf T n)

abbrev s8 : ITy := ⟨true, 0⟩
abbrev s16 : ITy := ⟨true, 1⟩
abbrev s32 : ITy := ⟨true, 2⟩

/- the literals of the program have these types: `make_safe_literal(n, pic16_promotion, void)` with `n` an `int` -/
example : ∀ n ∈ ([0, 1, -1, 2, 3, 4, 8] : List Int), makeLit tInt n false = .ret (litTy s8 n false) := by decide +kernel
example : ∀ n ∈ ([128, 255, 256, 1000, 0x909, 0x908, 0x808, 0x809] : List Int),
    makeLit tInt n false = .ret (litTy s16 n false) := by decide +kernel
example : ∀ n ∈ ([1280000, 6400 * 6, 0xffffff] : List Int), makeLit tInt n false = .ret (litTy s32 n false) := by decide +kernel
example : makeLit tInt 6400 false = .ret (litTy s16 6400 false) := by decide +kernel
/- `~literal(1)` -/
example : litNot (litTy s8 1 false) = .ret (litTy s8 (-2) false) := by decide +kernel

/-- example93.cpp:47 -/
abbrev C0 : Ex := lit s32 1280000
/-- example93.cpp:51 -/
abbrev C_MIN : Ex := lit s16 6400

abbrev add (a b : Ex) : Ex := .bin (.ar .add) a b
abbrev sub (a b : Ex) : Ex := .bin (.ar .sub) a b
abbrev mul (a b : Ex) : Ex := .bin (.ar .mul) a b
abbrev div (a b : Ex) : Ex := .bin (.ar .div) a b
abbrev band (a b : Ex) : Ex := .bin (.bit .band) a b
abbrev bor (a b : Ex) : Ex := .bin (.bit .bor) a b
abbrev enum (n : Int) : Ex := .const enumTy n

/-- motor3.c:19-24 -/
abbrev ramp_idle : Ex := enum 0
abbrev ramp_up : Ex := enum 1
abbrev ramp_const : Ex := enum 2
abbrev ramp_down : Ex := enum 3

/-- motor3.c:101 `literal(2) * c / (literal(4) * i + literal(1))` -/
def rampUp : Ex := div (mul (lit s8 2) (.var c)) (add (mul (lit s8 4) (.var i)) (lit s8 1))

/-- motor3.c:130 `c + literal(2) * c / (literal(4) * (m - i) - literal(1))` -/
def rampDown : Ex := add (.var c) (div (mul (lit s8 2) (.var c)) (sub (mul (lit s8 4) (sub (.var m) (.var i))) (lit s8 1)))

/-- motor3.c:142 `literal(0xffffff) & (ccpr + c)` -/
def nextCcpr : Ex := band (lit s32 0xffffff) (add (.var ccpr) (.var c))

/-- motor3.c:143 `(phase_ix + d) & literal(3)` -/
def nextPhase : Ex := band (add (.var phase_ix) (.var d)) (lit s8 3)

/-- motor3.c:177 `(TMR1H << literal(8) | TMR1L) + C0 + literal(1000)` -/
def firstCcpr : Ex := add (add (bor (.bin .shl (.var TMR1H) (lit s8 8)) (.var TMR1L)) C0) (lit s16 1000)

/-- example93.cpp:245 `(t + literal(128)) / literal(256)` -/
def toMicroseconds : Ex := div (add (.var t) (lit s16 128)) (lit s16 256)

/-! ### statements -/

abbrev St := LStmt names 23

/-- a list of statements -/
def block : List St → St
  | [] => .skip
  | [a] => a
  | a :: l => .seq a (block l)

/-- `assert(e)` -/
def assert (e : LCond names 23) : St := .while (.not e) .skip

/-- motor3.c:47-52, 68: `phase = ccpPhase[phase_ix_arg]`; the index is converted to `std::ptrdiff_t` -/
def lookup : St := block [
  .assign ix (.var phase_ix),
  .ite (.cmp .eq (.var ix) (.const ⟨true, 3⟩ 0)) (.assign phase (lit s16 0x909)) <|
  .ite (.cmp .eq (.var ix) (.const ⟨true, 3⟩ 1)) (.assign phase (lit s16 0x908)) <|
  .ite (.cmp .eq (.var ix) (.const ⟨true, 3⟩ 2)) (.assign phase (lit s16 0x808)) <|
  .assign phase (lit s16 0x809)]

/-- motor3.c:66-74 `update(ccpr, phase_ix)` -/
def update : St := block [
  lookup,
  .assign CCP1CON (band (.var phase) (lit s16 0xff)),
  .assign CCP2CON (.bin .shr (.var phase) (lit s8 8)),
  .assign CCPR1H (band (lit s16 0xff) (.bin .shr (.var ccpr) (lit s8 8))),
  .assign CCPR1L (band (lit s16 0xff) (.var ccpr))]

/-- motor3.c:140-144 -/
def isrEnd : St := block [
  assert (.and (.cmp .le (.var c) C0) (.cmp .ge (.var c) C_MIN)),
  .assign ccpr nextCcpr,
  .assign phase_ix nextPhase,
  update]

/-- motor3.c:116-133 `case ramp_down` and what follows -/
def caseDown : St :=
  .ite (.cmp .eq (.var i) (.var m))
    (block [.assign ramp_sts ramp_idle, .assign CCP1IE (lit s8 0)])
    (block [
      .assign x rampDown,
      .ite (.cmp .gt (.var x) C0) (.assign c (.cast temp_t C0)) (.assign c (.var x)),
      isrEnd])

/-- motor3.c:110-115 `case ramp_const` and what follows -/
def caseConst : St :=
  .ite (.cmp .gt (.var i) (.var m2)) (block [.assign ramp_sts ramp_down, caseDown]) isrEnd

/-- motor3.c:94-109 `case ramp_up` and what follows -/
def caseUp : St :=
  .ite (.cmp .eq (.var i) (.var m2))
    (block [.assign ramp_sts ramp_down, caseDown])
    (block [
      .opAssign (.ar .sub) c rampUp,
      .ite (.cmp .lt (.var c) C_MIN)
        (block [
          .assign c C_MIN,
          .assign ramp_sts ramp_const,
          .assign m2 (sub (.var m) (.var i)),
          caseConst])
        isrEnd])

/-- motor3.c:81-145 `isr_motor_step()`; the `for` loop repeats the `switch` for the new value of `ramp_sts` -/
def isr_motor_step : St := block [
  .ite (.cmp .lt (.var d) (.const s32 0)) (.dec motor_position) (.inc motor_position),
  .inc i,
  .ite (.cmp .eq (.var ramp_sts) ramp_up) caseUp <|
  .ite (.cmp .eq (.var ramp_sts) ramp_const) caseConst <|
  .ite (.cmp .eq (.var ramp_sts) ramp_down) caseDown <|
  assert (.cmp .ne (.const s32 0) (.const s32 0))]

/-- motor3.c:167-182, the part of `motor_run` when there is something to do -/
def start : St := block [
  .assign i (lit s8 0),
  .assign m2 (div (.var m) (lit s8 2)),
  .assign ramp_sts ramp_up,
  .opAssign (.bit .band) TMR1ON (lit s8 (-2)),
  .assign c C0,
  .assign ccpr firstCcpr,
  .assign phase_ix (band (.var d) (lit s8 3)),
  update,
  .assign CCP1IE (lit s8 1),
  .opAssign (.bit .bor) TMR1ON (lit s8 1)]

/-- motor3.c:148-183 `motor_run(new_position)` -/
def motor_run : St :=
  .ite (.cmp .gt (.var new_position) (.var motor_position))
    (block [.assign d (lit s8 1), .assign m (sub (.var new_position) (.var motor_position)), start])
  (.ite (.cmp .gt (.var motor_position) (.var new_position))
    (block [.assign d (lit s8 (-1)), .assign m (sub (.var motor_position) (.var new_position)), start])
    (block [.assign d (lit s8 0), .assign m (lit s8 0), .assign ramp_sts ramp_idle]))

/-- motor3.c:61-63 `busy()` -/
def busy : LCond names 23 := .cmp .ne ramp_idle (.var ramp_sts)

/-- example93.cpp:264-273: compute the delay, then wait for the interrupt -/
def turn : St := block [.assign t (.var c), .assign us toMicroseconds, isr_motor_step]

/-- example93.cpp:253-274 `test(new_position)`, without the output and without the `try` block -/
def test : St := .seq motor_run (.while busy turn)

end Verif.Motor
