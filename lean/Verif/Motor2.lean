import Verif.Lang

/-!
The first safe version of the stepper motor program of the library's tutorial, `example/example92.cpp` with
`example/motor2.c`, in the language of `Lang.lean`: the types of the C program replaced by safe types with the `cpp` promotion
policy of a PIC processor, and the default exception policy.

Simplified: functions are expanded where they are called, parameters are variables; an array of four constants is a choice
between four assignments; output and the waiting time are left out. The enumeration is a built-in `unsigned`, the constants
`true` and `false` are built-in `unsigned char`.
-/

namespace Verif.Motor2

attribute [local instance] lp64

/-- example92.cpp:21-27 `cpp<8, 16, 16, 16, 32>` -/
def pic16 : CppCfg := ⟨0, 1, 1, 1, 2⟩

/-- the policies of the program: one promotion policy (example92.cpp:21), one exception policy
(`default_exception_policy`, safe_integer.hpp:26-36 and exception_policies.hpp:171) -/
@[reducible] def names : Names where
  P := Unit
  E := Unit
  decP := inferInstance
  decE := inferInstance
  prom := fun _ => .cpp pic16
  act := fun _ => defaultException

/-- example92.cpp:40-44 `safe_t<T>` -/
abbrev safeT (T : ITy) : PTy names := ⟨Opd.ofSafe T, some (), some ()⟩

/-! ### variables -/

abbrev ramp_sts : Fin 30 := 0
abbrev motor_pos : Fin 30 := 1
abbrev pos_inc : Fin 30 := 2
abbrev phase : Fin 30 := 3
abbrev phase_ix : Fin 30 := 4
abbrev phase_inc : Fin 30 := 5
abbrev run_flg : Fin 30 := 6
abbrev ccpr : Fin 30 := 7
abbrev c : Fin 30 := 8
abbrev step_no : Fin 30 := 9
abbrev step_down : Fin 30 := 10
abbrev move : Fin 30 := 11
abbrev midpt : Fin 30 := 12
abbrev denom : Fin 30 := 13
abbrev CCP1IE : Fin 30 := 14
abbrev T1CON : Fin 30 := 15
abbrev CCPR2H : Fin 30 := 16
abbrev CCPR2L : Fin 30 := 17
abbrev CCPR1H : Fin 30 := 18
abbrev CCPR1L : Fin 30 := 19
abbrev CCP1CON : Fin 30 := 20
abbrev CCP2CON : Fin 30 := 21
abbrev TMR1H : Fin 30 := 22
abbrev TMR1L : Fin 30 := 23
/-- the parameter of `test` -/
abbrev m : Fin 30 := 24
/-- the parameter of `motor_run` -/
abbrev pos_new : Fin 30 := 25
/-- the parameter of `to_microseconds` -/
abbrev t : Fin 30 := 26
/-- the result of `to_microseconds` -/
abbrev us : Fin 30 := 27
/-- the result of `make16` -/
abbrev r16 : Fin 30 := 28
/-- the index of the array `ccpPhase` -/
abbrev ix : Fin 30 := 29

/-- the type of the enumeration `ramp_state` -/
abbrev enumTy : ITy := ⟨false, 2⟩
abbrev sInt : ITy := ⟨true, 2⟩
abbrev index : ITy := ⟨true, 3⟩

/-- motor2.c:25-41, example92.cpp:67-83 with the types of lines 51-56, and the variables that stand for parameters -/
def Γ : Fin 30 → PTy names
  | 0 => PTy.builtin enumTy
  | 1 | 2 | 13 | 25 => safeT ⟨true, 1⟩
  | 3 | 9 | 10 | 11 | 12 | 28 => safeT ⟨false, 1⟩
  | 7 | 8 | 26 => safeT ⟨false, 2⟩
  | 24 | 27 => safeT ⟨true, 2⟩
  | 29 => PTy.builtin index
  | _ => safeT ⟨false, 0⟩

/-! ### expressions -/

abbrev Ex := LExpr names 30
abbrev St := LStmt names 30
abbrev Co := LCond names 30

abbrev int (n : Int) : Ex := .const sInt n
abbrev enum (n : Int) : Ex := .const enumTy n
abbrev add (a b : Ex) : Ex := .bin (.ar .add) a b
abbrev sub (a b : Ex) : Ex := .bin (.ar .sub) a b
abbrev mul (a b : Ex) : Ex := .bin (.ar .mul) a b
abbrev div (a b : Ex) : Ex := .bin (.ar .div) a b
abbrev band (a b : Ex) : Ex := .bin (.bit .band) a b

/-- example92.cpp:30-31 -/
abbrev C0 : Ex := int (50000 * 2 ^ 8)
abbrev C_MIN : Ex := int (2500 * 2 ^ 8)

/-- motor2.c:17-23 -/
abbrev ramp_idle : Ex := enum 0
abbrev ramp_up : Ex := enum 1
abbrev ramp_max : Ex := enum 2
abbrev ramp_down : Ex := enum 3
abbrev ramp_last : Ex := enum 4

/-! ### statements -/

/-- a list of statements -/
def block : List St → St
  | [] => .skip
  | [a] => a
  | a :: l => .seq a (block l)

/-- motor2.c:45 and 123, 148: `phase = ccpPhase[phase_ix]`; the index is converted to `std::ptrdiff_t` -/
def lookup : St := block [
  .assign ix (.var phase_ix),
  .ite (.cmp .eq (.var ix) (.const index 0)) (.assign phase (int 0x909)) <|
  .ite (.cmp .eq (.var ix) (.const index 1)) (.assign phase (int 0x908)) <|
  .ite (.cmp .eq (.var ix) (.const index 2)) (.assign phase (int 0x808)) <|
  .assign phase (int 0x809)]

/-- motor2.c:119-120 and 145-146 -/
def timer : St := block [
  .assign CCPR1H (.bin .shr (.var ccpr) (int 8)),
  .assign CCPR2H (.var CCPR1H),
  .assign CCPR1L (band (.var ccpr) (int 0xff)),
  .assign CCPR2L (.var CCPR1L)]

/-- motor2.c:122 and 147 -/
def stepPhase : St := .assign phase_ix (band (add (.var phase_ix) (.var phase_inc)) (int 3))

/-- motor2.c:123-125 and 148-150 -/
def outputs : St := block [
  lookup,
  .assign CCP1CON (band (.var phase) (int 0xff)),
  .assign CCP2CON (.bin .shr (.var phase) (int 8))]

/-- motor2.c:76-98 `case ramp_down` -/
def caseDown : St :=
  .ite (.cmp .eq (.var step_no) (sub (.var move) (int 1)))
    (.assign ramp_sts ramp_last)
    (block [
      .opAssign (.ar .add) denom (int 4),
      .ite (.cmp .gt (.var denom) (int 0))
        (.opAssign (.ar .sub) c (div (.bin .shl (.var c) (int 1)) (.var denom)))
        (.opAssign (.ar .add) c (div (.bin .shl (.var c) (int 1)) (.neg (.var denom)))),
      .ite (.cmp .le (.var c) C_MIN)
        (block [
          .assign ramp_sts ramp_max,
          .assign step_down (sub (.var move) (.var step_no)),
          .assign c C_MIN])
        .skip])

/-- motor2.c:59-75 `case ramp_up`, which falls through to `case ramp_down` -/
def caseUp : St :=
  .ite (.cmp .eq (.var step_no) (.var midpt))
    (block [
      .assign ramp_sts ramp_down,
      .ite (.cmp .gt (.var step_no) (.var move))
        (.assign denom (add (mul (sub (.var step_no) (.var move)) (int 4)) (int 1)))
        (.assign denom (sub (mul (sub (.var move) (.var step_no)) (int 4)) (int 1))),
      .ite (.not (.truth (band (.var move) (int 1))))
        (.opAssign (.ar .add) denom (int 4))
        caseDown])
    caseDown

/-- motor2.c:99-108 `case ramp_max` -/
def caseMax : St :=
  .ite (.cmp .eq (.var step_no) (.var step_down))
    (block [
      .assign ramp_sts ramp_down,
      .assign denom (sub (int 5) (mul (sub (.var move) (.var step_no)) (int 4)))])
    .skip

/-- motor2.c:109-114 `default` -/
def caseLast : St := block [
  .assign ramp_sts ramp_idle,
  .assign CCP1IE (int 0),
  .assign run_flg (.const ⟨false, 0⟩ 0)]

/-- motor2.c:56-127 `isr_motor_step()` -/
def isr_motor_step : St := block [
  .opAssign (.ar .add) ccpr (.var c),
  .ite (.cmp .eq (.var ramp_sts) ramp_up) caseUp <|
  .ite (.cmp .eq (.var ramp_sts) ramp_down) caseDown <|
  .ite (.cmp .eq (.var ramp_sts) ramp_max) caseMax
  caseLast,
  .ite (.cmp .ne (.var ramp_sts) ramp_idle)
    (block [
      .opAssign (.ar .add) motor_pos (.var pos_inc),
      .inc step_no,
      timer,
      .ite (.cmp .ne (.var ramp_sts) ramp_last) stepPhase .skip,
      outputs])
    .skip]

/-- motor2.c:50-52 `make16(TMR1H, TMR1L)`; `l << 8 + r` is `l << (8 + r)` -/
def make16 : St := .assign r16 (.bin .shl (.cast (safeT ⟨false, 1⟩) (.var TMR1H)) (add (int 8) (.var TMR1L)))

/-- motor2.c:140-156, the part of `motor_run` when there is something to do -/
def start : St := block [
  .assign midpt (.bin .shr (sub (.var move) (int 1)) (int 1)),
  .assign c C0,
  .assign step_no (int 0),
  .assign denom (int 1),
  .assign ramp_sts ramp_up,
  .assign run_flg (.const ⟨false, 0⟩ 1),
  .opAssign (.bit .band) T1CON (int (-2)),
  make16,
  .assign ccpr (.var r16),
  .opAssign (.ar .add) ccpr (int 1000),
  timer,
  stepPhase,
  outputs,
  .assign CCP1IE (int 1),
  .opAssign (.bit .bor) T1CON (int 1)]

/-- motor2.c:129-157 `motor_run(pos_new)` -/
def motor_run : St :=
  .ite (.cmp .lt (.var pos_new) (.var motor_pos))
    (block [
      .assign move (sub (.var motor_pos) (.var pos_new)),
      .assign pos_inc (int (-1)),
      .assign phase_inc (int 0xff),
      start])
  (.ite (.cmp .ne (.var pos_new) (.var motor_pos))
    (block [
      .assign move (sub (.var pos_new) (.var motor_pos)),
      .assign pos_inc (int 1),
      .assign phase_inc (int 1),
      start])
    .skip)

/-- example92.cpp:148-159, the body of the loop: compute the delay, then wait for the interrupt, print -/
def turn : St := block [
  .assign t (.var c),
  .assign us (div (add (.var t) (int 128)) (int 256)),
  isr_motor_step]

/-- example92.cpp:138-160 `test(m)` without the `try` block: a `do` loop -/
def test : St := block [
  .assign pos_new (.var m),
  motor_run,
  turn,
  .while (.truth (.var run_flg)) turn]

end Verif.Motor2
