import Verif.Safe

/-!
`safe_integer_literal.hpp` and `safe_integer_range.hpp`: the types of literals and ranges, and the unary operators of
literals. A literal type is an `Opd` with `lo = hi = N`; its conversion to built-in types is `litToBuiltin` in
`SafeOps.lean`, its use as an operand of the binary operators is covered by the operators themselves.
The template parameters `P` and `E` are represented by the flag `b`: does the literal have an exception policy.
-/

namespace Verif
section
variable [Arch]

/-- the type `safe_literal_impl<T, N, P, E>` -/
def litTy (T : ITy) (N : Int) (b : Bool) : Opd := ⟨T, N, N, .lit b⟩

/-- safe_integer_literal.hpp:171-181 `safe_signed_literal<N>`, `N` of type `intmax_t`. The template argument `N` must be
representable in the stored type (a converted constant expression must not narrow). -/
def signedLit (N : Int) (b : Bool) : Out Opd := do
  let T ← signedStoredType N N
  if T.In N then .ret (litTy T N b) else .fault .illFormed

/-- safe_integer_literal.hpp:183-193 `safe_unsigned_literal<N>`, `N` of type `uintmax_t` -/
def unsignedLit (N : Int) (b : Bool) : Out Opd := do
  let T ← unsignedStoredType N N
  if T.In N then .ret (litTy T N b) else .fault .illFormed

/-- safe_integer_literal.hpp:195-224 `make_safe_literal(n, P, E)`: `n` of type `A` is converted to `intmax_t` or
`uintmax_t` -/
def makeLit (A : ITy) (n : Int) (b : Bool) : Out Opd :=
  if A.signed then signedLit (conv tIntMax n) b else unsignedLit (conv tUIntMax n) b

/-- safe_integer_literal.hpp:125-127 unary plus: the same type -/
def litPlus (T : Opd) : Out Opd := .ret T

/-- safe_integer_literal.hpp:140-149: `minus_helper` exists only if `checked::minus(N)` is free of error; its result has
the template argument `-N`, which must not narrow -/
def litMinus (T : Opd) : Out Opd := Out.static do
  let c ← minus T.base make T.lo
  if c.exception then .fault .illFormed
  else do
    let v ← cNeg T.base T.lo
    if T.base.In v then .ret ⟨T.base, v, v, T.kind⟩ else .fault .illFormed

/-- safe_integer_literal.hpp:159-168: complement, with template argument `~N` -/
def litNot (T : Opd) : Out Opd := Out.static do
  let c ← bitwiseNot T.base make T.lo
  if c.exception then .fault .illFormed
  else
    let v := cNot T.base T.lo
    if T.base.In v then .ret ⟨T.base, v, v, T.kind⟩ else .fault .illFormed

/-- safe_integer_range.hpp:26-38 `safe_signed_range<Min, Max>`; the bounds are converted to the stored type -/
def signedRange (mn mx : Int) : Out Opd := do
  let T ← signedStoredType mn mx
  .ret (Opd.range T (conv T mn) (conv T mx))

/-- safe_integer_range.hpp:43-55 `safe_unsigned_range<Min, Max>` -/
def unsignedRange (mn mx : Int) : Out Opd := do
  let T ← unsignedStoredType mn mx
  .ret (Opd.range T (conv T mn) (conv T mx))

end
end Verif
