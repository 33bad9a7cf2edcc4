import Verif.Promotion

/-!
The operators of safe types as the user writes them: `safe_base.hpp:229-276` and the operator templates of
`safe_base_operations.hpp`, with promotion policy `pp` and exception policy `p`. All safe types of a program
share these two policies (mixing is modelled in Lang.lean).
-/

namespace Verif
section
variable [Arch]

/-- the arithmetic operators -/
inductive Arith
  | add | sub | mul | div | mod
  deriving DecidableEq, Repr

/-- the operator in the promotion policy -/
def Arith.binOp : Arith → BinOp
  | .add => .add
  | .sub => .sub
  | .mul => .mul
  | .div => .div
  | .mod => .mod

/-- the interval computation of the operator -/
def Arith.itv : Arith → ITy → Itv CR → Itv CR → Out (Itv CR)
  | .add => itvAdd
  | .sub => itvSub
  | .mul => itvMul
  | .div => divItv
  | .mod => modItv

/-- the value computation of the operator -/
def Arith.run : Arith → EP → ITy → Opd → Opd → Int → Int → Out Int
  | .add => runOp opAdd
  | .sub => runOp opSub
  | .mul => runOp opMul
  | .div => runDiv
  | .mod => runMod

/-- the safe type of `a op b`: safe_base_operations.hpp:453-460, 576-583, 701-708, 861-868, 1021-1028 -/
def arithTy (pp : PP) (o : Arith) (T U : Opd) : Out Opd := do
  let R ← pp.result o.binOp T U
  resTy o.itv R T U

/-- the value of `a op b`: safe_base_operations.hpp:477-484, 600-607, 725-732, 885-892, 1045-1053 -/
def arith (pp : PP) (p : EP) (o : Arith) (T U : Opd) (t u : Int) : Out Int := do
  let R ← pp.result o.binOp T U
  o.run p R T U t u

/-- `a << b`: safe_base_operations.hpp:1276-1401 -/
def shl (pp : PP) (p : EP) (T U : Opd) (t u : Int) : Out Int := do
  let R ← pp.result .shl T U
  runOp opShl p R T U t u
/-- the type of `a << b`: safe_base_operations.hpp:1354-1361 -/
def shlTy (pp : PP) (T U : Opd) : Out Opd := do
  let R ← pp.result .shl T U
  resTy itvShl R T U
/-- `a >> b`: safe_base_operations.hpp:1423-1541 -/
def shr (pp : PP) (p : EP) (T U : Opd) (t u : Int) : Out Int := do
  let R ← pp.result .shr T U
  runShr p R T U t u
/-- the type of `a >> b`: safe_base_operations.hpp:1510-1517 -/
def shrTy (pp : PP) (T U : Opd) : Out Opd := do
  let R ← pp.result .shr T U
  resTy itvShr R T U

/-- the comparison operators -/
inductive Rel
  | lt | gt | le | ge | eq | ne
  deriving DecidableEq, Repr

/-- `a op b`: safe_base_operations.hpp:1135-1267; `>` and `<=` swap their operands -/
def compare (pp : PP) (p : EP) (o : Rel) (T U : Opd) (t u : Int) : Out Bool :=
  match o with
  | .lt => do runLt p (← pp.result .cmp T U) T U t u
  | .gt => do runGt p (← pp.result .cmp U T) T U t u
  | .le => do runLe p (← pp.result .cmp U T) T U t u
  | .ge => do runGe p (← pp.result .cmp T U) T U t u
  | .eq => do runEq p (← pp.result .cmp T U) T U t u
  | .ne => do runNe p (← pp.result .cmp T U) T U t u

/-- the bitwise operators -/
inductive Bitwise
  | bor | band | bxor
  deriving DecidableEq, Repr

/-- the operator in the promotion policy -/
def Bitwise.binOp : Bitwise → BinOp
  | .bor => .bor
  | .band => .band
  | .bxor => .bxor
/-- `std::max` or `std::min` -/
def Bitwise.pick : Bitwise → Int → Int → Int
  | .band => pickMin
  | _ => pickMax
/-- the value computation -/
def Bitwise.run : Bitwise → ITy → Opd → Opd → Int → Int → Out Int
  | .bor => runOr
  | .band => runAnd
  | .bxor => runXor

/-- `a | b`, `a & b`, `a ^ b`: safe_base_operations.hpp:1625-1632, 1689-1696, 1752-1759 -/
def bitwise (pp : PP) (o : Bitwise) (T U : Opd) (t u : Int) : Out Int := do
  let R ← pp.result o.binOp T U
  o.run R T U t u
/-- their type -/
def bitwiseTy (pp : PP) (o : Bitwise) (T U : Opd) : Out Opd := do
  let R ← pp.result o.binOp T U
  bitTy o.pick R T U

/-- safe_base.hpp:261-268 unary minus: `0 - *this` -/
def neg (pp : PP) (p : EP) (T : Opd) (t : Int) : Out Int := arith pp p .sub (Opd.ofBuiltin tInt) T 0 t
/-- its type -/
def negTy (pp : PP) (T : Opd) : Out Opd := arithTy pp .sub (Opd.ofBuiltin tInt) T

/-- safe_base.hpp:274-276 complement: `~Stored(0u) ^ *this`; the left operand has the promoted stored type -/
def compl (pp : PP) (T : Opd) (t : Int) : Out Int :=
  bitwise pp .bxor (Opd.ofBuiltin (promote T.base)) T (cNot T.base 0) t
/-- its type -/
def complTy (pp : PP) (T : Opd) : Out Opd := bitwiseTy pp .bxor (Opd.ofBuiltin (promote T.base)) T

/-- safe_base.hpp:289-310: `numeric_limits<safe_base<B, Min, Max>>::lowest()`; made without validation -/
def limLowest (T : Opd) : Int := T.lo
/-- `numeric_limits::min()`, safe_base.hpp:303-305; a literal (safe_integer_literal.hpp:236-256) is its only value -/
def limMin (T : Opd) : Int := T.lo
/-- `numeric_limits::max()`, safe_base.hpp:306-308 -/
def limMax (T : Opd) : Int := T.hi

/-- conversion of the result (safe type `S`, value `v`) to the type of the variable assigned to -/
def store (p : EP) (T S : Opd) (v : Int) : Out Int :=
  match T.kind with
  | .safe => construct p T S v
  | _ => toBuiltin p T.base S v

/-- `t op= u`: safe_base_operations.hpp:486-494, 609-617, 734-742, 894-902, 1055-1063: `t = static_cast<T>(t op u)`.
The outcome is the new value of `t`. -/
def compound (pp : PP) (p : EP) (o : Arith) (T U : Opd) (t u : Int) : Out Int := do
  let S ← arithTy pp o T U
  let v ← arith pp p o T U t u
  store p T S v

/-- `t <<= u`: safe_base_operations.hpp:1391-1401: `t = static_cast<T>(t << u)` -/
def compoundShl (pp : PP) (p : EP) (T U : Opd) (t u : Int) : Out Int := do
  let S ← shlTy pp T U
  let v ← shl pp p T U t u
  store p T S v
/-- `t >>= u`: safe_base_operations.hpp:1547-1557 -/
def compoundShr (pp : PP) (p : EP) (T U : Opd) (t u : Int) : Out Int := do
  let S ← shrTy pp T U
  let v ← shr pp p T U t u
  store p T S v
/-- `t |= u`, `t &= u`, `t ^= u`: safe_base_operations.hpp:1634-1642, 1698-1706, 1761-1769 -/
def compoundBit (pp : PP) (p : EP) (o : Bitwise) (T U : Opd) (t u : Int) : Out Int := do
  let S ← bitwiseTy pp o T U
  let v ← bitwise pp o T U t u
  store p T S v

/-- safe_base.hpp:229-231 `++t` : `*this = *this + 1` -/
def preInc (pp : PP) (p : EP) (T : Opd) (t : Int) : Out Int := do
  let S ← arithTy pp .add T (Opd.ofBuiltin tInt)
  let v ← arith pp p .add T (Opd.ofBuiltin tInt) t 1
  construct p T S v
/-- safe_base.hpp:232-234 `--t` -/
def preDec (pp : PP) (p : EP) (T : Opd) (t : Int) : Out Int := do
  let S ← arithTy pp .sub T (Opd.ofBuiltin tInt)
  let v ← arith pp p .sub T (Opd.ofBuiltin tInt) t 1
  construct p T S v
/-- safe_base.hpp:235-239 `t++`: the value returned and the new value -/
def postInc (pp : PP) (p : EP) (T : Opd) (t : Int) : Out (Int × Int) := do
  let v ← preInc pp p T t
  .ret (t, v)
/-- safe_base.hpp:240-244 `t--` -/
def postDec (pp : PP) (p : EP) (T : Opd) (t : Int) : Out (Int × Int) := do
  let v ← preDec pp p T t
  .ret (t, v)

end
end Verif
