import Verif.Conform
import Verif.Lit
import Verif.Lang

/-!
Tests of the model, not proofs: the programs of /repo/test that have no table of expected results, evaluated on the model (LP64).
-/

namespace Verif.Conform
attribute [local instance] lp64

/-- test/test_interval.cpp:90-113: the ends of intervals and the operands -/
def itvValues (R : ITy) : List CR :=
  [.err .negative_overflow_error] ++ (if R.signed then [.ok R.min, .ok (-1), .ok 0] else [.ok 0]) ++
    [.ok 1, .ok R.max, .err .positive_overflow_error, .err .domain_error]

/-- test/test_interval.cpp:31-88 `test_type_operator`: the intervals and operands for which it fails -/
def differItv (R : ITy) (f : ITy → CR → CR → Out CR) (g : ITy → Itv CR → Itv CR → Out (Itv CR)) : Nat :=
  let vs := itvValues R
  let c := crCmp R
  let is := (vs.flatMap fun l => vs.map fun u => (⟨l, u⟩ : Itv CR)).filter fun i => !(crGt R i.l i.u).toBool
  let pts := vs.flatMap fun a => vs.map fun b => (a, b, f R a b)
  (is.map fun p1 => (is.map fun p2 =>
    match g R p1 p2 with
    | .ret ri =>
      if (crLt R ri.u ri.l).toBool then 0 else
        (pts.filter fun (a, b, r) =>
          match r with
          | .ret (.err .range_error) => false
          | .ret (.err .domain_error) => false
          | .ret v => (((p1.includesPt c a).and (p2.includesPt c b)).and (ri.includesPt c v).not).toBool
          | _ => true).length
    | _ => 1000).sum).sum

def itvFailures (R : ITy) : List Nat :=
  [differItv R crAdd itvAdd, differItv R crSub itvSub, differItv R crMul itvMul, differItv R crShl itvShl, differItv R crShr itvShr]

#guard [i8, i16, i32, i64, u8, u16, u32, u64].all fun R => itvFailures R = [0, 0, 0, 0, 0]
-- a wrong interval operator is noticed
#guard differItv i8 crAdd itvSub ≠ 0

/-- test/test_cast.cpp:20-87 `test_cast`: conversion to `safe<T2>` from `T1`, and from `safe<T1>` to `T2` -/
def castOk (T1 T2 : ITy) (v : Int) : Bool :=
  (match construct strictException (Opd.ofSafe T2) (Opd.ofBuiltin T1) v with
    | .ret r => SafeCompare.equal T2 T1 r v
    | .thrown _ => ! SafeCompare.equal T2 T1 (conv T2 v) v
    | _ => false) &&
  (match toBuiltin strictException T2 (Opd.ofSafe T1) v with
    | .ret r => SafeCompare.equal T2 T1 r v
    | .thrown _ => ! SafeCompare.equal T2 T1 (conv T2 v) v
    | _ => false)

#guard [i8, i16, i32, i64, u8, u16, u32, u64].all fun T2 => values.all fun (T1, v) => castOk T1 T2 v

/-- test/test_construction.cpp:15-124 `test_construction` (parts 1 to 4). The failing constructions leave the variable of the test
uninitialised, so that the test compares only on success; here the failures are checked too. -/
def constructionOk (T1 T2 : ITy) (t1 : Int) : Bool :=
  let S1 := Opd.ofSafe T1
  let S2 := Opd.ofSafe T2
  construct strictException S1 (Opd.ofBuiltin T1) t1 = .ret t1 &&
  (match (do toBuiltin strictException T2 S2 (← construct strictException S2 (Opd.ofBuiltin T1) t1)) with
    | .ret t2 => SafeCompare.equal T2 T1 t2 t1
    | .thrown _ => ! SafeCompare.equal T2 T1 (conv T2 t1) t1
    | _ => false) &&
  (match (do compare .native strictException .eq S1 S1 (← construct strictException S1 S1 t1) t1) with
    | .ret b => b
    | _ => false) &&
  (match (do toBuiltin strictException T2 S2 (← construct strictException S2 S1 t1)) with
    | .ret t2 => SafeCompare.equal T1 T2 t1 t2
    | .thrown _ => ! SafeCompare.equal T2 T1 (conv T2 t1) t1
    | _ => false)

#guard [i8, i16, i32, i64, u8, u16, u32, u64].all fun T2 => values.all fun (T1, v) => constructionOk T1 T2 v

-- test/test_auto.cpp:10-24
#guard [(127, 6), (128, 7), (129, 7), (255, 7), (256, 8)].all fun (x, r) => ilog2 u32 x = .ret r ∧ ilog2 i32 x = .ret r
-- test/test_auto.cpp:33-50, 80: no exception
#guard arith .automatic strictException .add (Opd.ofSafe i8) (Opd.ofBuiltin i8) 1 (-128) = .ret (-127) ∧
  arith .automatic strictException .add (Opd.ofBuiltin i8) (Opd.ofSafe i8) 1 (-128) = .ret (-127)
-- test/test_range.cpp:15-24
#guard [(127, 7), (128, 8), (129, 8), (255, 8), (256, 9)].all fun (x, r) => significantBits u32 x = .ret r
-- test/test_range.cpp:26-34
#guard (match unsignedRange 0 1000 with | .ret T => T.base.signed = false | _ => false)
-- test/test_range.cpp:48-76 `test2`: nothing throws
#guard (match (do
    let S ← signedRange (-64) 63
    let x ← construct strictException S (Opd.ofBuiltin i32) 1
    let y ← construct strictException S (Opd.ofBuiltin i32) 2
    let z ← arith .automatic strictException .add S S x y
    let z2 ← arith .automatic strictException .sub S S x y
    let yi ← toBuiltin strictException i16 S y
    let Z ← arithTy .automatic .add S (Opd.ofBuiltin i16)
    let w ← arith .automatic strictException .add S (Opd.ofBuiltin i16) x yi
    let zi ← toBuiltin strictException i16 Z w
    .ret [z, z2, zi] : Out (List Int)) with | .ret l => l = [3, -1, 3] | _ => false)
-- test/test_cpp.cpp: 8 bit char, 16 bit short, int and long, 32 bit long long
#guard cppResult ⟨0, 1, 1, 1, 2⟩ u8 u8 = .ret u16

/-- does a program compile? -/
def compiles (x : Out α) : Bool :=
  match x with
  | .fault .illFormed => false
  | _ => true

/-- test/test_trap.cpp:25-39 `test`: which operators on two `safe<T, native, loose_trap_policy>` compile -/
def trapAccepts (T : ITy) : List Bool :=
  let S := Opd.ofSafe T
  ([Arith.add, .sub, .mul, .div, .mod].map fun o => compiles (arith .native looseTrap o S S 1 1)) ++
  [compiles (shl .native looseTrap S S 1 1), compiles (shr .native looseTrap S S 1 1)] ++
  ([Bitwise.bor, .band, .bxor].map fun o => compiles (bitwise .native o S S 1 1))

-- the comments of test/test_trap.cpp:29-44: `/` and `%` could fail for every type, `+`, `-` and `*` only for 32 and 64 bits;
-- Jamfile.v2:81 expects that the program does not compile
#guard [i8, i16].all fun T => trapAccepts T = [true, true, true, false, false, false, false, true, true, true]
#guard [i32, i64].all fun T => trapAccepts T = [false, false, false, false, false, false, false, true, true, true]

-- test/test_constexpr.cpp:24-49: operators on the literals 1000 and 1, native, loose_trap_policy
#guard (do
  let X ← unsignedLit 1000 true
  let Y ← unsignedLit 1 true
  let a ← [Arith.add, .sub, .mul, .div, .mod].mapM fun o => arith .native looseTrap o X Y 1000 1
  let b ← [Bitwise.bor, .band, .bxor].mapM fun o => bitwise .native o X Y 1000 1
  .ret (a ++ b) : Out (List Int)) = .ret [1001, 999, 1000, 1000, 0, 1001, 0, 1001]
-- test/test_constexpr.cpp:51-60: `-x` must not compile (Jamfile.v2:82 expects that the program does not), `-x0` is zero
#guard !compiles (do litMinus (← unsignedLit 1000 true) : Out Opd)
#guard (do .ret (← litMinus (← unsignedLit 0 true)).lo : Out Int) = .ret 0

/-- test/test_custom_exception.cpp:35-40 `logging_exception_policy`: handlers that log and return -/
def logging : EP :=
  let all : Act := .user [.positive_overflow_error, .negative_overflow_error, .domain_error, .range_error,
    .precision_overflow_error, .underflow_error, .negative_value_shift, .negative_shift, .shift_too_large, .uninitialized_value]
  ⟨all, all, all, all⟩

-- test/test_custom_exception.cpp:59-71: the values after a logged error are undefined, the last one is good
#guard (do construct logging (← unsignedRange 1910 2099) (Opd.ofBuiltin i32) 7 : Out Int) = .fault .ub
#guard (do construct logging (← signedRange 1910 2099) (Opd.ofBuiltin i32) 7 : Out Int) = .fault .ub
#guard (do construct logging (← unsignedRange 0 2) (Opd.ofBuiltin i32) 7 : Out Int) = .fault .ub
#guard defaultConstruct logging = .ret none
#guard (do construct logging (← unsignedRange 1910 2099) (Opd.ofBuiltin i32) 2000 : Out Int) = .ret 2000

end Verif.Conform
