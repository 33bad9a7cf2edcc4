import Verif.Interval

/-!
`safe_base.hpp` and `safe_base_operations.hpp` (constructors, conversions, binary and unary operators).

A C++ operand type is an `Opd`. The result base type `R`, which the promotion policy computes from the operand
types, is a parameter here; `Promotion.lean` supplies it. `p` is the exception policy of the expression
(`common_exception_policy`, safe_base_operations.hpp:248-286; the static assertions there, which reject
mixed policies, are modelled in Lang.lean). `base_value` of a safe value (safe_base.hpp:87-91) is the conversion to its own
stored type, which is the identity (theorem `toBuiltin_self`), so the operators below use the value directly.
-/

namespace Verif

/-- What sort of operand: a built-in integer, a `safe_base`, or a `safe_literal_impl` (`true` if the literal has
an exception policy of its own, `false` if that is `void`). -/
inductive Kind
  | builtin
  | safe
  | lit (hasPolicy : Bool)
  deriving DecidableEq, Repr

/-- An operand type: `base_type` and the two `numeric_limits` (safe_base.hpp:289-310,
safe_integer_literal.hpp:236-256). -/
structure Opd where
  base : ITy
  lo : Int
  hi : Int
  kind : Kind
  deriving DecidableEq, Repr

section
variable [Arch]

namespace Opd
/-- an operand type that can be written in C++ -/
def Wf (T : Opd) : Prop :=
  T.base.Ok ∧ T.base.In T.lo ∧ T.base.In T.hi ∧ T.lo ≤ T.hi ∧
  (T.kind = .builtin → T.lo = T.base.min ∧ T.hi = T.base.max) ∧ (∀ b, T.kind = .lit b → T.lo = T.hi)

instance (T : Opd) : Decidable T.Wf :=
  inferInstanceAs (Decidable (_ ∧ _ ∧ _ ∧ _ ∧ _ ∧ _))

/-- `x` is a value of the operand type -/
def Has (T : Opd) (x : Int) : Prop := T.lo ≤ x ∧ x ≤ T.hi

instance (T : Opd) (x : Int) : Decidable (T.Has x) := inferInstanceAs (Decidable (_ ∧ _))

/-- a built-in integer type -/
def ofBuiltin (B : ITy) : Opd := ⟨B, B.min, B.max, .builtin⟩
/-- safe_integer.hpp:25-36 `safe<B>` -/
def ofSafe (B : ITy) : Opd := ⟨B, B.min, B.max, .safe⟩
/-- `safe_base<B, lo, hi>` -/
def range (B : ITy) (lo hi : Int) : Opd := ⟨B, lo, hi, .safe⟩
end Opd

/-- `interval<checked_result<R>>{checked::cast<R>(min of T), checked::cast<R>(max of T)}`, a compile time
constant that occurs in safe_base_operations.hpp:132-135, 418-425, 539-547, 663-671, 803-815, 962-974,
1110-1117, 1222-1230, 1317-1325, 1462-1474. -/
def castItv (R : ITy) (T : Opd) : Out (Itv CR) := Out.static do
  let l ← checkedCast R T.base T.lo
  let u ← checkedCast R T.base T.hi
  .ret ⟨l, u⟩

/-- safe_base_operations.hpp:100-148 `validate_detail<R, Min, Max, E>::return_value`; lines 110-118: the
conversion of the erroneous checked result to `R` (only reached with an ignoring policy) reads the
inactive union member. -/
def validate (R : ITy) (mn mx : Int) (p : EP) (T : Opd) (t : Int) : Out Int := do
  let ti ← castItv R T
  let ri : Itv CR := ⟨.ok mn, .ok mx⟩
  if (ri.excludes (crCmp R) ti).toBool then .fault .illFormed
  else if (ri.includes (crCmp R) ti).toBool then .ret (conv R t)
  else if p.traps (castErrs R T.base) then .fault .illFormed
  else do
    let rx ← cast R mn mx T.base (dispatchAndReturn p) t
    rx.value

/-- safe_base_operations.hpp:152-156 `validated_cast`, 184-214 the converting constructors,
safe_base.hpp:221-226 `operator=`. The safe type constructed is `S` with policy `p`. A source of the very same
type uses the defaulted copy operations (safe_base.hpp:196-202), which do not validate. -/
def construct (p : EP) (S T : Opd) (t : Int) : Out Int :=
  if T = S then .ret t else validate S.base S.lo S.hi p T t

/-- safe_base_operations.hpp:160-169: default construction. `some` value would be an initialised one; the member
is left uninitialised. -/
def defaultConstruct (p : EP) : Out (Option Int) :=
  if p.traps [.uninitialized_value] then .fault .illFormed
  else do
    dispatch p .uninitialized_value
    .ret none

/-- safe_base_operations.hpp:219-243: conversion of a safe value (type `T`) to the built-in type `R`. The
static assertion compares intervals over `R` (the bounds are converted to `R` first). The value
validated is `m_t`, of the built-in type `T.base`. -/
def toBuiltin (p : EP) (R : ITy) (T : Opd) (t : Int) : Out Int :=
  if ((⟨R.min, R.max⟩ : Itv Int).excludes (intCmp R) ⟨conv R T.lo, conv R T.hi⟩).toBool then .fault .illFormed
  else validate R R.min R.max p (Opd.ofBuiltin T.base) t

/-- safe_integer_literal.hpp:99-122 and 125-148 of safe_base_operations.hpp: the compile time part of converting
a literal to the built-in type `R`; a literal without policy has no `on_arithmetic_error` to instantiate. -/
def litCheck (R : ITy) (T : Opd) : Out Unit :=
  match T.kind with
  | .lit b => do
    let ti ← castItv R T
    let ri : Itv CR := ⟨.ok R.min, .ok R.max⟩
    if (ri.excludes (crCmp R) ti).toBool then .fault .illFormed
    else if !(ri.includes (crCmp R) ti).toBool && !b then .fault .illFormed
    else .ret ()
  | _ => .ret ()

/-- safe_integer_literal.hpp:99-122: conversion of a literal to the built-in type `R` -/
def litToBuiltin (p : EP) (R : ITy) (T : Opd) : Out Int := do
  litCheck R T
  validate R R.min R.max p T T.lo

/-- safe_base_operations.hpp:100-148 `validate_detail<bool, false, true, E>::return_value`. `bool` is an unsigned type of the
values 0 and 1 that is promoted to `int` like `unsigned char`; its values are those two numbers of that type here. The source
value `t` is of the type `T`. -/
def validateBool (p : EP) (T : Opd) (t : Int) : Out Bool := do
  let ti : Itv CR ← Out.static do
    let l ← cast u8 0 1 T.base make T.lo
    let u ← cast u8 0 1 T.base make T.hi
    .ret ⟨l, u⟩
  let ri : Itv CR := ⟨.ok 0, .ok 1⟩
  if (ri.excludes (crCmp u8) ti).toBool then .fault .illFormed
  else if (ri.includes (crCmp u8) ti).toBool then .ret (t ≠ 0)
  else if p.traps (castErrs u8 T.base) then .fault .illFormed
  else do
    let rx ← cast u8 0 1 T.base (dispatchAndReturn p) t
    let v ← rx.value
    .ret (v ≠ 0)

/-- conversion to `bool`, as in `if(x)`, `!x`, `x && y`: safe_base_operations.hpp:219-243 for a safe value (which
validates `m_t`, of the built-in type `T.base`), safe_integer_literal.hpp:99-122 for a literal, the language for a built-in
value. The static assertion compares the bounds after their conversion to `bool`, as 0 or 1 (see `toBool_assert`). A literal without
exception policy compiles only if no check is needed. -/
def toBool (p : EP) (T : Opd) (t : Int) : Out Bool :=
  let b (x : Int) : Int := if x = 0 then 0 else 1
  match T.kind with
  | .builtin => .ret (t ≠ 0)
  | .safe =>
    if ((⟨0, 1⟩ : Itv Int).excludes (intCmp u8) ⟨b T.lo, b T.hi⟩).toBool then .fault .illFormed
    else validateBool p (Opd.ofBuiltin T.base) t
  | .lit hp =>
    if ¬ (T.lo = 0 ∨ T.lo = 1) ∧ !hp then .fault .illFormed
    else validateBool p T T.lo

/-- `static_cast<R>(t)` in safe_base_operations.hpp:343 and 354 -/
def castFallback (p : EP) (R : ITy) (T : Opd) (t : Int) : Out Int :=
  match T.kind with
  | .builtin => .ret (conv R t)
  | .safe => toBuiltin p R T t
  | .lit _ => litToBuiltin p R T

/-- what instantiating one half of `casting_helper` (safe_base_operations.hpp:332-357) requires -/
def castStatic (p : EP) (R : ITy) (T : Opd) : Out Unit := do
  litCheck R T
  if p.traps (castErrs R T.base) then .fault .illFormed else .ret ()

/-- safe_base_operations.hpp:335-344 (first operand), 346-355 (second operand), run time part -/
def castOne (p : EP) (R : ITy) (T : Opd) (t : Int) : Out Int := do
  let tx ← cast R R.min R.max T.base (dispatchAndReturn p) t
  if tx.exception then castFallback p R T t else tx.value

/-- safe_base_operations.hpp:332-357 `casting_helper<EP, R>(t, u)` -/
def castingHelper (p : EP) (R : ITy) (T U : Opd) (t u : Int) : Out (Int × Int) := do
  castStatic p R T
  castStatic p R U
  let a ← castOne p R T t
  let b ← castOne p R U u
  .ret (a, b)

/-! ### Addition, subtraction, multiplication, shifts: common shape -/

/-- what distinguishes the five operators that share one shape -/
structure ArithOp where
  /-- the operator on intervals of checked results -/
  itv : ITy → Itv CR → Itv CR → Out (Itv CR)
  /-- the built-in operator -/
  prim : ITy → ITy → Int → Int → Out Int
  /-- the member of `checked_operation` -/
  chk : ITy → Handler → Int → Int → Out CR
  /-- the built-in operator evaluated when an error was ignored -/
  ignored : ITy → ITy → Int → Int → Out Int
  /-- the errors instantiated by `chk` -/
  errs : List Err

/-- safe_base_operations.hpp:377-494 -/
def opAdd : ArithOp := ⟨itvAdd, cAdd, add, cAdd, [.positive_overflow_error, .negative_overflow_error]⟩
/-- safe_base_operations.hpp:499-617; line 533: the ignored branch adds -/
def opSub : ArithOp := ⟨itvSub, cSub, subtract, cAdd, [.positive_overflow_error, .negative_overflow_error]⟩
/-- safe_base_operations.hpp:622-742 -/
def opMul : ArithOp := ⟨itvMul, cMul, multiply, cMul, [.positive_overflow_error, .negative_overflow_error]⟩
/-- safe_base_operations.hpp:1276-1401 -/
def opShl : ArithOp := ⟨itvShl, cShl, leftShift, cShl, [.negative_shift, .shift_too_large]⟩

/-- `r_type_interval`, e.g. safe_base_operations.hpp:417-428; a compile time constant -/
def resItv (f : ITy → Itv CR → Itv CR → Out (Itv CR)) (R : ITy) (T U : Opd) : Out (Itv CR) := Out.static do
  let ti ← castItv R T
  let ui ← castItv R U
  f R ti ui

/-- `x.exception() ? limit : static_cast<R>(x)` -/
def endOr (limit : Int) : CR → Int
  | .ok v => v
  | .err _ => limit

/-- `return_interval`, e.g. safe_base_operations.hpp:430-437 -/
def retItv (R : ITy) (ri : Itv CR) : Itv Int := ⟨endOr R.min ri.l, endOr R.max ri.u⟩

/-- `exception_possible`, e.g. safe_base_operations.hpp:439-447. On the third test the interval of checked results
(both ends ordinary by then) is converted to an interval of `R`. -/
def excPossible (R : ITy) (ri : Itv CR) : Bool :=
  ri.l.exception || ri.u.exception
  || (((retItv R ri).includes (intCmp R) (retItv R ri)).not).toBool

/-- `type`, e.g. safe_base_operations.hpp:453-460 -/
def resTy (f : ITy → Itv CR → Itv CR → Out (Itv CR)) (R : ITy) (T U : Opd) : Out Opd := do
  let ri ← resItv f R T U
  .ret (Opd.range R (retItv R ri).l (retItv R ri).u)

/-- the run time part when an exception is possible, e.g. safe_base_operations.hpp:392-413 -/
def runChecked (op : ArithOp) (p : EP) (R : ITy) (T U : Opd) (t u : Int) : Out Int := do
  castStatic p R T
  castStatic p R U
  if p.traps op.errs then .fault .illFormed
  else do
    let r ← castingHelper p R T U t u
    let rx ← op.chk R (dispatchAndReturn p) r.1 r.2
    if rx.exception then do
      let v ← op.ignored R R r.1 r.2
      .ret (conv R v)
    else rx.value

/-- the run time part when no exception is possible, e.g. safe_base_operations.hpp:384-390 -/
def runPlain (op : ArithOp) (R : ITy) (t u : Int) : Out Int := do
  let v ← op.prim R R (conv R t) (conv R u)
  .ret (conv R v)

/-- `return_value`, e.g. safe_base_operations.hpp:462-471 (the value of the safe result) -/
def runOp (op : ArithOp) (p : EP) (R : ITy) (T U : Opd) (t u : Int) : Out Int := do
  let ri ← resItv op.itv R T U
  if excPossible R ri then runChecked op p R T U t u else runPlain op R t u

/-! ### Division and modulus -/

/-- safe_base_operations.hpp:818-836 and 976-995 `get_r_type_interval`, automatic.hpp:198-216 and 258-276:
`f` is the operator on intervals, `g` the one on checked results. `r_type(-1)` converts `-1` to `R`. -/
def divModItv (f : ITy → Itv CR → Itv CR → Out (Itv CR)) (g : ITy → CR → CR → Out CR) (R : ITy)
    (t u : Itv CR) : Out (Itv CR) :=
  if ((crLt R u.u (.ok 0)).or (crGt R u.l (.ok 0))).toBool then f R t u
  else do
    let c1 ← g R t.l u.l
    let c2 ← g R t.l (.ok (conv R (-1)))
    let c3 ← g R t.l (.ok 1)
    let c4 ← g R t.l u.u
    let c5 ← g R t.u u.l
    let c6 ← g R t.u (.ok (conv R (-1)))
    let c7 ← g R t.u (.ok 1)
    let c8 ← g R t.u u.u
    let p ← minmax (crLtB R) [c1, c2, c3, c4, c5, c6, c7, c8]
    .ret ⟨p.1, p.2⟩

/-- the interval of `/`: safe_base_operations.hpp:818-836 -/
def divItv (R : ITy) (t u : Itv CR) : Out (Itv CR) := divModItv itvDiv crDiv R t u
/-- the interval of `%`: safe_base_operations.hpp:976-995 -/
def modItv (R : ITy) (t u : Itv CR) : Out (Itv CR) := divModItv itvMod crMod R t u

/-- safe_base_operations.hpp:848-855, 1007-1014 `exception_possible` -/
def divExcPossible (R : ITy) (ui ri : Itv CR) : Bool :=
  (ui.includesPt (crCmp R) (.ok 0)).toBool || ri.l.exception || ri.u.exception

/-- safe_base_operations.hpp:766-773, 924-931 `bits` -/
def tempBits (R : ITy) (T U : Opd) : Int :=
  let m := Nat.max R.digits (Nat.max T.base.digits U.base.digits) + (if R.signed then 1 else 0)
  ((Nat.min tUIntMax.digits m : Nat) : Int)

/-- safe_base_operations.hpp:779-783, 937-941 `temp_base` -/
def tempBase (R : ITy) (T U : Opd) : Out ITy := leastType R.signed (tempBits R T U)

/-- safe_base_operations.hpp:748-902 (division) and 907-1063 (modulus). After an ignored error the operator on
checked results is evaluated (line 799: `r.first / r.second` of type `checked_result`) and converted to `R`.
The result is converted from `temp_base` to `R` without check. -/
def runDivMod (f : ITy → Itv CR → Itv CR → Out (Itv CR)) (prim : ITy → ITy → Int → Int → Out Int)
    (chk : ITy → Handler → Int → Int → Out CR) (g : ITy → CR → CR → Out CR) (es : List Err)
    (p : EP) (R : ITy) (T U : Opd) (t u : Int) : Out Int := do
  let ri ← resItv f R T U
  let ui ← castItv R U
  if divExcPossible R ui ri then do
    let B ← tempBase R T U
    castStatic p B T
    castStatic p B U
    if p.traps es then .fault .illFormed
    else do
      let r ← castingHelper p B T U t u
      let rx ← chk B (dispatchAndReturn p) r.1 r.2
      if rx.exception then do
        let c ← g B (.ok r.1) (.ok r.2)
        let v ← c.value
        .ret (conv R v)
      else do
        let v ← rx.value
        .ret (conv R v)
  else do
    let v ← prim R R (conv R t) (conv R u)
    .ret (conv R v)

/-- `operator/`: safe_base_operations.hpp:748-892 -/
def runDiv : EP → ITy → Opd → Opd → Int → Int → Out Int :=
  runDivMod divItv cDiv divide crDiv [.domain_error, .positive_overflow_error]
/-- `operator%`: safe_base_operations.hpp:907-1052 -/
def runMod : EP → ITy → Opd → Opd → Int → Int → Out Int :=
  runDivMod modItv cMod modulus crMod [.domain_error]

/-! ### Right shift -/

/-- safe_base_operations.hpp:1490-1504 `exception_possible` of `>>`: a tribool converted to bool -/
def shrExcPossible (R : ITy) (ti ui ri : Itv CR) : Bool :=
  ((((crGt R ui.u (.ok (conv R R.digits))).or (crLt R ti.l (.ok 0))).or (crLt R ui.l (.ok 0))).or
    (T3.ofBool ri.l.exception) |>.or (T3.ofBool ri.u.exception)).toBool

/-- safe_base_operations.hpp:1423-1557: the parts of `>>` shared with the other operators -/
def opShr : ArithOp :=
  ⟨itvShr, cShr, rightShift, cShr, [.negative_shift, .shift_too_large, .negative_value_shift]⟩

/-- `operator>>`: safe_base_operations.hpp:1423-1541 -/
def runShr (p : EP) (R : ITy) (T U : Opd) (t u : Int) : Out Int := do
  let ri ← resItv itvShr R T U
  let ti ← castItv R T
  let ui ← castItv R U
  if shrExcPossible R ti ui ri then runChecked opShr p R T U t u else runPlain opShr R t u

/-! ### Comparison -/

/-- `interval_open`: safe_base_operations.hpp:1103-1105, 1215-1217 -/
def itvOpen (i : Itv CR) : Bool := i.l.exception || i.u.exception

/-- `operator<`: safe_base_operations.hpp:1070-1133. The call on line 1127 is instantiated (and must compile)
even when one of the returns above it is taken. -/
def runLt (p : EP) (R : ITy) (T U : Opd) (t u : Int) : Out Bool := do
  let ti ← castItv R T
  let ui ← castItv R U
  let open_ := itvOpen ti || itvOpen ui
  if open_ then do
    castStatic p R T
    castStatic p R U
    if (ti.lt (crCmp R) ui).toBool then .ret true
    else if (ti.gt (crCmp R) ui).toBool then .ret false
    else do
      let r ← castingHelper p R T U t u
      .ret (SafeCompare.lessThan R R r.1 r.2)
  else if (ti.lt (crCmp R) ui).toBool then .ret true
  else if (ti.gt (crCmp R) ui).toBool then .ret false
  else .ret (cLt R R (conv R t) (conv R u))

/-- `operator>`: safe_base_operations.hpp:1153-1160; the operands are swapped, so the promotion policy sees them
in the other order: `R'` is the comparison type of `(U, T)` -/
def runGt (p : EP) (R' : ITy) (T U : Opd) (t u : Int) : Out Bool := runLt p R' U T u t

/-- `operator>=`: safe_base_operations.hpp:1162-1169 -/
def runGe (p : EP) (R : ITy) (T U : Opd) (t u : Int) : Out Bool := do
  let b ← runLt p R T U t u
  .ret (!b)

/-- `operator<=`: safe_base_operations.hpp:1171-1178 -/
def runLe (p : EP) (R' : ITy) (T U : Opd) (t u : Int) : Out Bool := do
  let b ← runGt p R' T U t u
  .ret (!b)

/-- `operator==`: safe_base_operations.hpp:1182-1258 -/
def runEq (p : EP) (R : ITy) (T U : Opd) (t u : Int) : Out Bool := do
  let ti ← castItv R T
  let ui ← castItv R U
  let open_ := itvOpen ti || itvOpen ui
  if open_ then do
    castStatic p R T
    castStatic p R U
    if (ti.intersect (crCmp R) ui).not.toBool then .ret false
    else do
      let r ← castingHelper p R T U t u
      .ret (SafeCompare.equal R R r.1 r.2)
  else if (ti.intersect (crCmp R) ui).not.toBool then .ret false
  else .ret (cEq R R (conv R t) (conv R u))

/-- `operator!=`: safe_base_operations.hpp:1259-1267 -/
def runNe (p : EP) (R : ITy) (T U : Opd) (t u : Int) : Out Bool := do
  let b ← runEq p R T U t u
  .ret (!b)

/-! ### Bitwise operators -/

/-- the result type of `|`, `&`, `^`: safe_base_operations.hpp:1597-1612, 1661-1676, 1724-1739. `pick` is `std::max`
or `std::min` on the unsigned counterpart. The bound is a template argument of type `R`: a value that does
not fit is a narrowing conversion and does not compile. -/
def bitTy (pick : Int → Int → Int) (R : ITy) (T U : Opd) : Out Opd := do
  let r := R.toUnsigned
  let m ← Out.static (roundOut r (pick (conv r T.hi) (conv r U.hi)))
  if R.In m then .ret (Opd.range R 0 m) else .fault .illFormed

/-- `std::max` on integers -/
def pickMax (a b : Int) : Int := if a < b then b else a
/-- `std::min` on integers -/
def pickMin (a b : Int) : Int := if b < a then b else a

/-- `operator|`: safe_base_operations.hpp:1581-1633 -/
def runOr (R : ITy) (T U : Opd) (t u : Int) : Out Int := do
  let _ ← bitTy pickMax R T U
  .ret (conv R (cOr R R (conv R t) (conv R u)))
/-- `operator&`: safe_base_operations.hpp:1645-1697 -/
def runAnd (R : ITy) (T U : Opd) (t u : Int) : Out Int := do
  let _ ← bitTy pickMin R T U
  .ret (conv R (cAnd R R (conv R t) (conv R u)))
/-- `operator^`: safe_base_operations.hpp:1709-1760 -/
def runXor (R : ITy) (T U : Opd) (t u : Int) : Out Int := do
  let _ ← bitTy pickMax R T U
  .ret (conv R (cXor R R (conv R t) (conv R u)))

end
end Verif
