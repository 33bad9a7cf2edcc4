import Verif.Cpp

/-!
Error classes, exception policies and error texts
(`exception.hpp`, `exception_policies.hpp`, dispatch part of `safe_base_operations.hpp`).
-/

namespace Verif

/-- exception.hpp:129-135 `safe_numerics_actions` -/
inductive Action
  | no_action
  | uninitialized_value
  | arithmetic_error
  | implementation_defined_behavior
  | undefined_behavior
  deriving DecidableEq, Repr

/-- exception_policies.hpp:85-114 `make_safe_numerics_action` -/
def makeAction : Err → Action
  | .negative_overflow_error => .arithmetic_error
  | .underflow_error => .arithmetic_error
  | .range_error => .arithmetic_error
  | .domain_error => .arithmetic_error
  | .positive_overflow_error => .arithmetic_error
  | .precision_overflow_error => .arithmetic_error
  | .negative_value_shift => .implementation_defined_behavior
  | .negative_shift => .implementation_defined_behavior
  | .shift_too_large => .implementation_defined_behavior
  | .uninitialized_value => .uninitialized_value
  | .success => .no_action

/-- exception.hpp:159-189 `safe_numerics_actions_category::equivalent` for codes of the library's own
category (the category test on line 163 is therefore true and not modelled). -/
def equivalent (code : Err) : Action → Bool
  | .no_action => code == .success
  | .uninitialized_value => code == .uninitialized_value
  | .arithmetic_error =>
      code == .positive_overflow_error || code == .negative_overflow_error
      || code == .underflow_error || code == .range_error || code == .domain_error
  | .implementation_defined_behavior =>
      code == .negative_value_shift || code == .negative_shift || code == .shift_too_large
  | .undefined_behavior => false

/-- exception_policies.hpp:53-82: the pre-made handlers `ignore_exception`, `trap_exception`,
`throw_exception`, and a handler written by the user: any function object can be a parameter of `exception_policy`
(lines 17-48). What matters about it is for which codes it returns; for the others it throws (an exception of
whatever type, identified here with the code it was called for). Handlers that do not come back at all (abort, loop) are
not modelled. -/
inductive Act
  | ignore
  | trap
  | throw
  | user (returns : List Err)
  deriving DecidableEq, Repr

/-- exception_policies.hpp:17-48 `exception_policy<AE, IDB, UB, UV>`. -/
structure EP where
  ae : Act
  idb : Act
  ub : Act
  uv : Act
  deriving DecidableEq, Repr

/-- exception_policies.hpp:124-129 -/
def looseException : EP := ⟨.throw, .ignore, .ignore, .ignore⟩
/-- exception_policies.hpp:136-141 -/
def looseTrap : EP := ⟨.trap, .ignore, .ignore, .ignore⟩
/-- exception_policies.hpp:149-154 -/
def strictException : EP := ⟨.throw, .throw, .throw, .ignore⟩
/-- exception_policies.hpp:161-166 -/
def strictTrap : EP := ⟨.trap, .trap, .trap, .trap⟩
/-- exception_policies.hpp:171 -/
def defaultException : EP := strictException

/-- safe_base_operations.hpp:48-74 `dispatch_case<EP, a>`: the handler selected for an action;
there is no `invoke` for `no_action` (does not compile). -/
def EP.act (p : EP) : Action → Option Act
  | .uninitialized_value => some p.uv
  | .arithmetic_error => some p.ae
  | .implementation_defined_behavior => some p.idb
  | .undefined_behavior => some p.ub
  | .no_action => none

/-- One handler call: exception_policies.hpp:53-82. A trap has no call operator: does not compile. -/
def Act.run : Act → Err → Out Unit
  | .ignore, _ => .ret ()
  | .trap, _ => .fault .illFormed
  | .throw, e => .thrown e
  | .user f, e => if f.contains e then .ret () else .thrown e

/-- safe_base_operations.hpp:78-83 `dispatch<EP, E>` -/
def dispatch (p : EP) (e : Err) : Out Unit :=
  match p.act (makeAction e) with
  | some a => a.run e
  | none => .fault .illFormed

/-- Does instantiating `dispatch<EP, E>` for one of the errors `es` fail to compile?
(A template body is instantiated as a whole, whatever the run time values are.) -/
def EP.traps (p : EP) (es : List Err) : Bool :=
  es.any fun e => p.act (makeAction e) == some .trap || p.act (makeAction e) == none

/-- exception.hpp:48-64 `literal_string` -/
def literalString : Err → String
  | .success => "success"
  | .positive_overflow_error => "positive_overflow_error"
  | .negative_overflow_error => "negative_overflow_error"
  | .domain_error => "domain_error"
  | .range_error => "range_error"
  | .precision_overflow_error => "precision_overflow_error"
  | .underflow_error => "underflow_error"
  | .negative_value_shift => "negative_value_shift"
  | .negative_shift => "negative_shift"
  | .shift_too_large => "shift_too_large"
  | .uninitialized_value => "uninitialized_value"

/-- The integer value of an enumerator; exception.hpp:34-46 (consecutive from 0). -/
def Err.toNat : Err → Nat
  | .success => 0
  | .positive_overflow_error => 1
  | .negative_overflow_error => 2
  | .domain_error => 3
  | .range_error => 4
  | .precision_overflow_error => 5
  | .underflow_error => 6
  | .negative_value_shift => 7
  | .negative_shift => 8
  | .shift_too_large => 9
  | .uninitialized_value => 10

/-- exception.hpp:89-117 `safe_numerics_error_category::message(int)` for an argument that is not negative; the cast on line 90 to the
enumeration, whose underlying type is `std::uint8_t`, reduces it modulo 256; a value without enumerator fails the assertion of
line 114. -/
def message (ev : Nat) : Out String :=
  match ev % 256 with
  | 0 => .ret "success"
  | 1 => .ret "positive overflow error"
  | 2 => .ret "negative overflow error"
  | 6 => .ret "underflow error"
  | 4 => .ret "range error"
  | 5 => .ret "precision_overflow_error"
  | 3 => .ret "domain error"
  | 8 => .ret "negative shift"
  | 7 => .ret "negative value shift"
  | 9 => .ret "shift too large"
  | 10 => .ret "uninitialized value"
  | _ => .fault .assertFail

/-- exception.hpp:121-123 `make_error_code`: the integer held by the `std::error_code`.
A `std::error_code` converts to `true` exactly when it is non-zero. -/
def makeErrorCode (e : Err) : Nat := e.toNat

end Verif
