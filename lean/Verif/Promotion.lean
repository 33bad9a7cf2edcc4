import Verif.SafeOps

/-!
Promotion policies: `native.hpp`, `automatic.hpp`, `cpp.hpp`. A policy computes the base type of the result of an
operator from the operand types.
-/

namespace Verif

/-- the operators a promotion policy knows; `cmp` stands for all comparisons -/
inductive BinOp
  | add | sub | mul | div | mod | cmp | shl | shr | bor | band | bxor
  deriving DecidableEq, Repr

/-- The template arguments of `cpp<CharBits, ShortBits, IntBits, LongBits, LongLongBits>` (cpp.hpp:32-39), as width
exponents: `boost::int_t<N>::exact` (cpp.hpp:41-45) only exists for the widths of the machine. -/
structure CppCfg where
  c : Nat
  s : Nat
  i : Nat
  l : Nat
  ll : Nat
  deriving DecidableEq, Repr

/-- cpp.hpp:47-65 `rank`. The C++ code compares types; types of equal width are identified here. -/
def cppRank (m : CppCfg) (k : Nat) : Nat :=
  if m.c = k then 1
  else if m.s = k then 2
  else if m.i = k then 3
  else if m.l = k then 4
  else if m.ll = k then 5
  else 6

/-- cpp.hpp:70-75 `higher_ranked_type` -/
def higherRanked (m : CppCfg) (T U : ITy) : ITy := if cppRank m T.lg < cppRank m U.lg then U else T

/-- cpp.hpp:77-82 `copy_sign` -/
def copySign (T U : ITy) : ITy := ⟨U.signed, T.lg⟩

/-- cpp.hpp:84-88 `integral_promotion` -/
def cppPromote (m : CppCfg) (T : ITy) : ITy := copySign (higherRanked m ⟨true, m.i⟩ T) T

/-- cpp.hpp:92-97 `select_signed` -/
def selectSigned (T U : ITy) : ITy := if T.signed then T else U
/-- cpp.hpp:99-104 `select_unsigned` -/
def selectUnsigned (T U : ITy) : ITy := if T.signed then U else T

/-- cpp.hpp:107-137 `usual_arithmetic_conversions`; lines 134-135 name the class `std::make_signed<...>`, which is not
an integer type, so that the program does not compile. -/
def cppUac (m : CppCfg) (T U : ITy) : Out ITy :=
  if T = U then .ret T
  else if T.signed = U.signed then .ret (higherRanked m T U)
  else if cppRank m (selectSigned T U).lg ≤ cppRank m (selectUnsigned T U).lg then .ret (selectUnsigned T U)
  else if (selectUnsigned T U).digits ≤ (selectSigned T U).digits then .ret (selectSigned T U)
  else .fault .illFormed

/-- cpp.hpp:139-143 `result_type`, the same for all operators (lines 145-190) -/
def cppResult (m : CppCfg) (T U : ITy) : Out ITy := cppUac m (cppPromote m T) (cppPromote m U)

section
variable [Arch]

/-- native.hpp:22-104: `decltype(T() op U())` -/
def nativeResult : BinOp → ITy → ITy → ITy
  | .shl, T, _ => promote T
  | .shr, T, _ => promote T
  | _, T, U => uac T U

/-- automatic.hpp:57-65 `temp_base_type` (likewise 134-142, 176-184, 236-244, 299-307) -/
def autoTemp (T U : Opd) : ITy := if T.base.signed = false ∧ U.base.signed = false then tUIntMax else tIntMax

/-- automatic.hpp:373-377 and 412-416 `temp_base_type` of the shifts -/
def autoShiftTemp (T : Opd) : ITy := if T.base.signed then tIntMax else tUIntMax

/-- automatic.hpp:43-50 `result_type<temp_base_type, Min, Max>` -/
def autoStored (B : ITy) (mn mx : Int) : Out ITy :=
  if B.signed then signedStoredType mn mx else unsignedStoredType mn mx

/-- automatic.hpp:84-92: the bounds of the interval, the limits of `temp_base_type` where it is open -/
def autoEnds (B : ITy) (i : Itv CR) : Out ITy := autoStored B (endOr B.min i.l) (endOr B.max i.u)

/-- automatic.hpp:340-349 `union_interval` -/
def unionItv (B : ITy) (t u : Itv CR) : Itv CR :=
  ⟨if (crLt B t.l u.l).toBool then t.l else u.l, if (crLt B t.u u.u).toBool then u.u else t.u⟩

/-- automatic.hpp:293-366 `comparison_result` -/
def autoCmp (T U : Opd) : Out ITy := do
  let ti ← castItv (autoTemp T U) T
  let ui ← castItv (autoTemp T U) U
  autoEnds (autoTemp T U) (unionItv (autoTemp T U) ti ui)

/-- automatic.hpp:410-450 `right_shift_result` -/
def autoShr (T U : Opd) : Out ITy := do
  let B := autoShiftTemp T
  let ti ← castItv B T
  let ui ← castItv B U
  let ri ← Out.static (itvShr B ti ⟨if ui.l.exception then .ok 0 else ui.l, ui.u⟩)
  autoEnds B ri

/-- automatic.hpp:55-473. Line 261: the modulus policy divides intervals when the denominator excludes zero. -/
def autoResult : BinOp → Opd → Opd → Out ITy
  | .add, T, U => do autoEnds (autoTemp T U) (← resItv itvAdd (autoTemp T U) T U)
  | .sub, T, U => do autoEnds tIntMax (← resItv itvSub tIntMax T U)
  | .mul, T, U => do autoEnds (autoTemp T U) (← resItv itvMul (autoTemp T U) T U)
  | .div, T, U => do autoEnds (autoTemp T U) (← resItv (divModItv itvDiv crDiv) (autoTemp T U) T U)
  | .mod, T, U => do autoEnds (autoTemp T U) (← resItv (divModItv itvDiv crMod) (autoTemp T U) T U)
  | .cmp, T, U => autoCmp T U
  | .shl, T, U => do autoEnds (autoShiftTemp T) (← resItv itvShl (autoShiftTemp T) T U)
  | .shr, T, U => autoShr T U
  | .bor, T, U => .ret (uac T.base U.base)
  | .band, T, U => .ret (uac T.base U.base)
  | .bxor, T, U => .ret (uac T.base U.base)

/-- a promotion policy of the library -/
inductive PP
  | native
  | automatic
  | cpp (m : CppCfg)
  deriving DecidableEq, Repr

/-- `promotion_policy::xxx_result<T, U>::type` -/
def PP.result : PP → BinOp → Opd → Opd → Out ITy
  | .native, op, T, U => .ret (nativeResult op T.base U.base)
  | .automatic, op, T, U => autoResult op T U
  | .cpp m, _, T, U => cppResult m T.base U.base

/-- The widths of the emulated machine exist on the host (otherwise `boost::int_t<N>::exact` does not). -/
def PP.Wf : PP → Prop
  | .cpp m => m.c ≤ Arch.maxLg ∧ m.s ≤ Arch.maxLg ∧ m.i ≤ Arch.maxLg ∧ m.l ≤ Arch.maxLg ∧ m.ll ≤ Arch.maxLg
  | _ => True

instance (pp : PP) : Decidable pp.Wf := by unfold PP.Wf; split <;> infer_instance

end
end Verif
