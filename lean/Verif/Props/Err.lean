import Verif.Checked

/-! Properties C20 and C42: error classes, policies, texts. -/

namespace Verif.Props

/-- Independent classification (documented in the library's reference: arithmetic errors are wrong results,
shift errors are implementation defined behaviour). -/
def errorClass (e : Err) : Option Action :=
  if e = .success then none
  else if e = .uninitialized_value then some .uninitialized_value
  else if e = .negative_value_shift ∨ e = .negative_shift ∨ e = .shift_too_large then
    some .implementation_defined_behavior
  else some .arithmetic_error

/-- The handler a user put into the policy for a class. -/
def slot (p : EP) (a : Action) : Act :=
  match a with
  | .arithmetic_error => p.ae
  | .implementation_defined_behavior => p.idb
  | .undefined_behavior => p.ub
  | .uninitialized_value => p.uv
  | .no_action => .ignore

/-- C20: dispatch runs exactly the handler of the error's class: a throwing handler throws that very code, an
ignoring handler returns, a trapping handler does not compile. -/
theorem C20_dispatch (p : EP) (e : Err) (a : Action) (h : errorClass e = some a) :
    (slot p a = .throw → dispatch p e = .thrown e) ∧
    (slot p a = .ignore → dispatch p e = .ret ()) ∧
    (slot p a = .trap → dispatch p e = .fault .illFormed) := by
  cases e <;> simp [errorClass] at h <;> subst h <;>
    refine ⟨fun h => ?_, fun h => ?_, fun h => ?_⟩ <;>
    simp only [slot] at h <;> simp [dispatch, makeAction, EP.act, h, Act.run]

/-- C20: the checked operations of safe types throw the code or hand it back. -/
theorem C20_dispatchAndReturn (p : EP) (e : Err) (a : Action) (h : errorClass e = some a) :
    (slot p a = .throw → dispatchAndReturn p e = .thrown e) ∧
    (slot p a = .ignore → dispatchAndReturn p e = .ret (.err e)) ∧
    (slot p a = .trap → dispatchAndReturn p e = .fault .illFormed) := by
  obtain ⟨h1, h2, h3⟩ := C20_dispatch p e a h
  have hne : e ≠ .success := by rintro rfl; simp [errorClass] at h
  refine ⟨fun h => ?_, fun h => ?_, fun h => ?_⟩
  · simp [dispatchAndReturn, h1 h]
  · simp [dispatchAndReturn, h2 h, mkErr, hne]
  · simp [dispatchAndReturn, h3 h]

/-- C20: there is no handler for success: code that dispatches it does not compile -/
theorem C20_success (p : EP) : dispatch p .success = .fault .illFormed := rfl

/-- C20: every non-success code has exactly one class; success has none. -/
theorem C20_one_class (e : Err) : (∃ a, errorClass e = some a) ↔ e ≠ .success := by
  cases e <;> simp [errorClass]

/-- C20, published equivalence: agrees with the classification for every code except
`precision_overflow_error` (next theorem). -/
theorem C20_equivalent_partial (e : Err) (he : e ≠ .precision_overflow_error) (a : Action)
    (ha : a ≠ .no_action) : equivalent e a = true ↔ errorClass e = some a := by
  cases e <;> cases a <;> simp_all [equivalent, errorClass]

/-- Only `success` is equivalent to `no_action`. -/
theorem C20_equivalent_success (e : Err) : equivalent e .no_action = true ↔ e = .success := by
  cases e <;> simp [equivalent]

/-- The full C20 fails: `precision_overflow_error` is dispatched as an arithmetic error but is equivalent to
no error condition at all. -/
theorem C20_equivalent_refuted :
    (∀ a, equivalent .precision_overflow_error a = false) ∧
    ∀ p, dispatch p .precision_overflow_error = p.ae.run .precision_overflow_error := by
  constructor
  · intro a; cases a <;> rfl
  · intro p; rfl

example : dispatch defaultException .positive_overflow_error = .thrown .positive_overflow_error := by decide
example : dispatch looseException .shift_too_large = .ret () := by decide
example : dispatch strictTrap .domain_error = .fault .illFormed := by decide
example : dispatch defaultException .uninitialized_value = .ret () := by decide

/-- C68, `loose_exception_policy`: throws on arithmetic errors, ignores all others. -/
theorem C68_looseException (e : Err) (he : e ≠ .success) :
    (errorClass e = some .arithmetic_error → dispatch looseException e = .thrown e) ∧
    (errorClass e ≠ some .arithmetic_error → dispatch looseException e = .ret ()) := by
  cases e <;> simp_all [errorClass, dispatch, makeAction, EP.act, looseException, Act.run]

/-- C68, `loose_trap_policy`: an operation that can meet an arithmetic error does not compile, all other errors are ignored. -/
theorem C68_looseTrap (e : Err) (he : e ≠ .success) :
    (errorClass e = some .arithmetic_error → dispatch looseTrap e = .fault .illFormed) ∧
    (errorClass e ≠ some .arithmetic_error → dispatch looseTrap e = .ret ()) := by
  cases e <;> simp_all [errorClass, dispatch, makeAction, EP.act, looseTrap, Act.run]

/-- C68, `strict_exception_policy` throws on every error except the use of an uninitialised value (next theorem). -/
theorem C68_strictException_partial (e : Err) (he : e ≠ .success) (hu : e ≠ .uninitialized_value) :
    dispatch strictException e = .thrown e := by
  cases e <;> simp_all [dispatch, makeAction, EP.act, strictException, Act.run]

/-- "Throw at runtime on any kind of error" (exception_policies.hpp:144) is not so: default construction, the use of an
uninitialised value, is ignored. -/
theorem C68_strictException_refuted : dispatch strictException .uninitialized_value = .ret () := rfl

/-- C68, `strict_trap_policy`: an operation that can meet any error does not compile. -/
theorem C68_strictTrap (e : Err) : dispatch strictTrap e = .fault .illFormed := by
  cases e <;> rfl

/-- C68: the policy used when none is given is the strict one that throws. -/
theorem C68_default (e : Err) : dispatch defaultException e = dispatch strictException e := rfl

/-- C68: no error has the class `undefined_behavior`; the handler a policy gives for it is never asked, at run time or compile time, so
that the third argument of `exception_policy` has no effect. -/
theorem C68_ub_unused (p : EP) (a : Act) :
    (∀ e, errorClass e ≠ some .undefined_behavior) ∧ (∀ e, dispatch { p with ub := a } e = dispatch p e) ∧
    ∀ es, EP.traps { p with ub := a } es = p.traps es := by
  have h : ∀ e, EP.act { p with ub := a } (makeAction e) = p.act (makeAction e) := by intro e; cases e <;> rfl
  refine ⟨fun e => by cases e <;> exact nofun, fun e => ?_, fun es => ?_⟩
  · simp only [dispatch, h]
  · simp only [EP.traps, h]

/-- C42: every enumerator has a non-empty message, messages are distinct -/
theorem C42_messages (e : Err) :
    ∃ s, message (makeErrorCode e) = .ret s ∧ s ≠ "" ∧
      ∀ e', message (makeErrorCode e') = .ret s → e' = e := by
  cases e <;> exact ⟨_, rfl, by decide, fun e' h => by cases e' <;> simp_all [message, makeErrorCode, Err.toNat]⟩

/-- C42: the message of a code is the name of its enumerator, spaces for underscores -/
theorem C42_message_names (e : Err) :
    ∃ s, message (makeErrorCode e) = .ret s ∧
      s.toList.map (fun c => if c = ' ' then '_' else c) = (literalString e).toList := by
  cases e <;> exact ⟨_, rfl, by decide⟩

/-- C42: enumerator names are distinct and non-empty -/
theorem C42_literals (e e' : Err) : literalString e ≠ "" ∧ (literalString e = literalString e' → e = e') := by
  cases e <;> cases e' <;> simp [literalString]

/-- C42: distinct errors are distinct codes; only success is falsy -/
theorem C42_codes (e e' : Err) :
    (makeErrorCode e = makeErrorCode e' → e = e') ∧ (makeErrorCode e = 0 ↔ e = .success) := by
  cases e <;> cases e' <;> simp [makeErrorCode, Err.toNat]

example : message (makeErrorCode .shift_too_large) = .ret "shift too large" := by decide
example : message 11 = .fault .assertFail := by decide

end Verif.Props
