import Verif.Lit
import Verif.Stream

/-!
Whole programs: variables of built-in and safe types with their own promotion and exception policies, all binary operators,
comparisons, casts, compound assignments, stream input and output, conditionals, loops and exception handlers.

This is the language in which the operators of the library are used; the library parts are the choice of the common
policies of an operator and the dispatch between the operators of the library, of literals and of the language.
Unary `~` is `LExpr.compl`, an abbreviation as in the library. Operands are evaluated from left to right.
A program that does not compile has the outcome `illFormed` when the execution reaches the offending expression.
-/

namespace Verif
section
variable [Arch]

/-- The policy classes that occur in a program, with their meaning. Two classes may have the same meaning and still be
different types. -/
structure Names where
  /-- promotion policies -/
  P : Type
  /-- exception policies -/
  E : Type
  decP : DecidableEq P
  decE : DecidableEq E
  prom : P → PP
  act : E → EP

instance (N : Names) : DecidableEq N.P := N.decP
instance (N : Names) : DecidableEq N.E := N.decE

/-- a type with its policies: `get_promotion_policy`, `get_exception_policy` (safe_common.hpp:30-38, safe_base.hpp:46-69,
safe_integer_literal.hpp:29-37); `none` is `void` -/
structure PTy (N : Names) where
  opd : Opd
  pr : Option N.P
  ex : Option N.E
  deriving DecidableEq

/-- a built-in type -/
def PTy.builtin (B : ITy) : PTy N := ⟨Opd.ofBuiltin B, none, none⟩

/-- `is_safe`: safe_common.hpp:17-19, safe_base.hpp:37-44, safe_integer_literal.hpp:25-27 (literals are safe types) -/
def PTy.isSafe (T : PTy N) : Bool := T.opd.kind ≠ .builtin

/-- the exception policy of a type; for `void` it is never consulted (such a conversion does not compile, see `litCheck`) -/
def PTy.ep (T : PTy N) : EP :=
  match T.ex with
  | some e => N.act e
  | none => ⟨.ignore, .ignore, .ignore, .ignore⟩

/-- `common_promotion_policy` and `common_exception_policy`: safe_base_operations.hpp:248-325. Static assertions: not two
different policies, not both void; then the policy of the second operand unless it is void. -/
def common {α : Type} [DecidableEq α] (t u : Option α) : Out α :=
  if ¬ (t = u ∨ t = none ∨ u = none) then .fault .illFormed
  else if t = none ∧ u = none then .fault .illFormed
  else
    match u with
    | some b => .ret b
    | none =>
      match t with
      | some a => .ret a
      | none => .fault .illFormed

/-- the binary operators with integer results -/
inductive Op2
  | ar (o : Arith)
  | bit (o : Bitwise)
  | shl
  | shr
  deriving DecidableEq, Repr

/-- the type of `a op b` under a promotion policy -/
def Op2.safeTy (pp : PP) : Op2 → Opd → Opd → Out Opd
  | .ar o => arithTy pp o
  | .bit o => bitwiseTy pp o
  | .shl => shlTy pp
  | .shr => shrTy pp

/-- the value of `a op b` under a promotion and an exception policy -/
def Op2.safeVal (pp : PP) (p : EP) : Op2 → Opd → Opd → Int → Int → Out Int
  | .ar o => arith pp p o
  | .bit o => bitwise pp o
  | .shl => Verif.shl pp p
  | .shr => Verif.shr pp p

/-- the type of the built-in operator -/
def Op2.cTy : Op2 → ITy → ITy → ITy
  | .shl, T, _ => promote T
  | .shr, T, _ => promote T
  | _, T, U => uac T U

/-- the built-in operator -/
def Op2.cVal : Op2 → ITy → ITy → Int → Int → Out Int
  | .ar .add => cAdd
  | .ar .sub => cSub
  | .ar .mul => cMul
  | .ar .div => cDiv
  | .ar .mod => cMod
  | .bit .bor => fun T U t u => .ret (cOr T U t u)
  | .bit .band => fun T U t u => .ret (cAnd T U t u)
  | .bit .bxor => fun T U t u => .ret (cXor T U t u)
  | .shl => cShl
  | .shr => cShr

/-- the type of `a op b`. If an operand is of a safe type the operator template of the library is chosen (`legal_overload`,
safe_base_operations.hpp:359-371); its result carries the common policies (e.g. 376-393, 450-460). -/
def pBinTy {N : Names} (o : Op2) (T U : PTy N) : Out (PTy N) :=
  if T.isSafe || U.isSafe then do
    let q ← common T.pr U.pr
    let e ← common T.ex U.ex
    let S ← o.safeTy (N.prom q) T.opd U.opd
    .ret ⟨S, some q, some e⟩
  else .ret (PTy.builtin (o.cTy T.opd.base U.opd.base))

/-- the value of `a op b` -/
def pBinVal {N : Names} (o : Op2) (T U : PTy N) (t u : Int) : Out Int :=
  if T.isSafe || U.isSafe then do
    let q ← common T.pr U.pr
    let e ← common T.ex U.ex
    o.safeVal (N.prom q) (N.act e) T.opd U.opd t u
  else o.cVal T.opd.base U.opd.base t u

/-- the comparison operators of C++ on built-in types -/
def cRel : Rel → ITy → ITy → Int → Int → Bool
  | .lt => cLt
  | .gt => cGt
  | .le => cLe
  | .ge => cGe
  | .eq => cEq
  | .ne => cNe

/-- `a < b` etc.: safe_base_operations.hpp:1070-1267 -/
def pCompare {N : Names} (o : Rel) (T U : PTy N) (t u : Int) : Out Bool :=
  if T.isSafe || U.isSafe then do
    let q ← common T.pr U.pr
    let e ← common T.ex U.ex
    compare (N.prom q) (N.act e) o T.opd U.opd t u
  else .ret (cRel o T.opd.base U.opd.base t u)

/-- conversion of a value of type `T` to the type `S`, by construction, assignment or cast. To a safe type: the converting
constructors and assignment validate with the exception policy of the target (safe_base_operations.hpp:152-156, 184-214,
safe_base.hpp:221-226); for the very same type, policies included, the defaulted copy operations. To a built-in type:
the conversion operators of safe types and of literals, with the exception policy of the source. -/
def convTo {N : Names} (S T : PTy N) (t : Int) : Out Int :=
  match S.opd.kind with
  | .safe => if T = S then .ret t else validate S.opd.base S.opd.lo S.opd.hi S.ep T.opd t
  | .builtin =>
    match T.opd.kind with
    | .builtin => .ret (conv S.opd.base t)
    | .safe => toBuiltin T.ep S.opd.base T.opd t
    | .lit _ => litToBuiltin T.ep S.opd.base T.opd
  | .lit _ => .fault .illFormed

/-- expressions -/
inductive LExpr (N : Names) (n : Nat)
  | var (i : Fin n)
  /-- a constant `c` of the built-in type `B` -/
  | const (B : ITy) (c : Int)
  /-- a safe literal of type `L` -/
  | lit (L : PTy N)
  | bin (o : Op2) (a b : LExpr N n)
  | neg (a : LExpr N n)
  | pos (a : LExpr N n)
  /-- `static_cast<S>(a)` -/
  | cast (S : PTy N) (a : LExpr N n)

/-- the type of `-a`: `0 - a` (safe_base.hpp:261-268) for safe integers, a literal (safe_integer_literal.hpp:140-149) for
literals -/
def negTyOf {N : Names} (T : PTy N) : Out (PTy N) :=
  match T.opd.kind with
  | .builtin => .ret (PTy.builtin (promote T.opd.base))
  | .safe => pBinTy (.ar .sub) (PTy.builtin tInt) T
  | .lit _ => do
    let L ← litMinus T.opd
    .ret ⟨L, T.pr, T.ex⟩

/-- the value of `-a` -/
def negValOf {N : Names} (T : PTy N) (t : Int) : Out Int :=
  match T.opd.kind with
  | .builtin => cNeg T.opd.base t
  | .safe => pBinVal (.ar .sub) (PTy.builtin tInt) T 0 t
  | .lit _ => do
    let L ← litMinus T.opd
    .ret L.lo

/-- the type of `+a`: safe_base.hpp:246-248, safe_integer_literal.hpp:125-127 -/
def posTyOf {N : Names} (T : PTy N) : PTy N :=
  match T.opd.kind with
  | .builtin => PTy.builtin (promote T.opd.base)
  | _ => T

/-- the type of an expression, `Γ` the types of the variables -/
def LExpr.ty {N : Names} (Γ : Fin n → PTy N) : LExpr N n → Out (PTy N)
  | .var i => .ret (Γ i)
  | .const B _ => .ret (PTy.builtin B)
  | .lit L => .ret L
  | .bin o a b => do pBinTy o (← a.ty Γ) (← b.ty Γ)
  | .neg a => do negTyOf (← a.ty Γ)
  | .pos a => do .ret (posTyOf (← a.ty Γ))
  | .cast S _ => .ret S

/-- the value of an expression -/
def LExpr.eval {N : Names} (Γ : Fin n → PTy N) (s : Fin n → Int) : LExpr N n → Out Int
  | .var i => .ret (s i)
  | .const _ k => .ret k
  | .lit L => .ret L.opd.lo
  | .bin o a b => do
    let T ← a.ty Γ
    let U ← b.ty Γ
    let x ← a.eval Γ s
    let y ← b.eval Γ s
    pBinVal o T U x y
  | .neg a => do
    let T ← a.ty Γ
    let x ← a.eval Γ s
    negValOf T x
  | .pos a => a.eval Γ s
  | .cast S a => do
    let T ← a.ty Γ
    let x ← a.eval Γ s
    convTo S T x

/-- `~a` for a safe integer of stored type `B`: `~Stored(0u) ^ a` (safe_base.hpp:274-276) -/
def LExpr.compl {N : Names} (B : ITy) (a : LExpr N n) : LExpr N n :=
  .bin (.bit .bxor) (.const (promote B) (cNot B 0)) a

/-- conditions -/
inductive LCond (N : Names) (n : Nat)
  | cmp (o : Rel) (a b : LExpr N n)
  /-- `e` as a condition, converted to `bool` -/
  | truth (a : LExpr N n)
  | not (a : LCond N n)
  | and (a b : LCond N n)
  | or (a b : LCond N n)

/-- the value of a condition -/
def LCond.eval {N : Names} (Γ : Fin n → PTy N) (s : Fin n → Int) : LCond N n → Out Bool
  | .cmp o a b => do
    let T ← a.ty Γ
    let U ← b.ty Γ
    let x ← a.eval Γ s
    let y ← b.eval Γ s
    pCompare o T U x y
  | .truth a => do
    let T ← a.ty Γ
    let x ← a.eval Γ s
    toBool T.ep T.opd x
  | .not a => do .ret (! (← a.eval Γ s))
  | .and a b => do if ← a.eval Γ s then b.eval Γ s else .ret false
  | .or a b => do if ← a.eval Γ s then .ret true else b.eval Γ s

/-- statements -/
inductive LStmt (N : Names) (n : Nat)
  | skip
  /-- `x = e` -/
  | assign (i : Fin n) (e : LExpr N n)
  /-- `x op= e` -/
  | opAssign (o : Op2) (i : Fin n) (e : LExpr N n)
  /-- `++x`, `x++` -/
  | inc (i : Fin n)
  /-- `--x`, `x--` -/
  | dec (i : Fin n)
  /-- `is >> x` -/
  | input (i : Fin n)
  /-- `os << e` -/
  | output (e : LExpr N n)
  | seq (a b : LStmt N n)
  | ite (c : LCond N n) (a b : LStmt N n)
  | while (c : LCond N n) (a : LStmt N n)
  /-- `try { a } catch(...) { b }` -/
  | tryCatch (a b : LStmt N n)

/-- the state of a program: variables, streams; `caught` counts the exceptions caught (it is not visible to the program) -/
structure LState (n : Nat) where
  st : Fin n → Int
  inp : IStream
  out : List Char
  caught : Nat

/-- write a variable -/
def LState.write (s : LState n) (i : Fin n) (v : Int) : LState n := { s with st := fun j => if j = i then v else s.st j }

/-- the value that `x = e` stores: safe_base.hpp:221-226 -/
def assignVal {N : Names} (Γ : Fin n → PTy N) (s : Fin n → Int) (i : Fin n) (e : LExpr N n) : Out Int := do
  let T ← e.ty Γ
  let v ← e.eval Γ s
  convTo (Γ i) T v

/-- the value that `x op= e` stores: `x = static_cast<T>(x op e)`, e.g. safe_base_operations.hpp:486-494 -/
def opAssignVal {N : Names} (Γ : Fin n → PTy N) (s : Fin n → Int) (o : Op2) (i : Fin n) (e : LExpr N n) : Out Int := do
  let U ← e.ty Γ
  let u ← e.eval Γ s
  let S ← pBinTy o (Γ i) U
  let v ← pBinVal o (Γ i) U (s i) u
  convTo (Γ i) S v

/-- finish a statement that stores a value -/
def storing (s : LState n) (i : Fin n) : Out Int → Out Unit × LState n
  | .ret v => (.ret (), s.write i v)
  | .thrown e => (.thrown e, s)
  | .fault f => (.fault f, s)

/-- `is >> x`: for a safe type safe_base_operations.hpp:1810-1847; for a built-in type that is not a character type
the extraction of the standard library, for a built-in character type the extraction of one character (both trusted). -/
def inputStep {N : Names} (T : PTy N) (old : Int) (s : IStream) : Out Unit × Int × IStream :=
  if T.isSafe then Verif.input T.ep T.opd old s
  else if isCharTy T.opd.base then
    let (v, s) := s.extractChar T.opd.base old
    (.ret (), v, s)
  else
    let (v, s) := s.extract T.opd.base id old
    (.ret (), v, s)

/-- `os << e`: safe_base_operations.hpp:1774-1798 and safe_integer_literal.hpp:49-84; a built-in character is
written as this character -/
def outputStep {N : Names} (T : PTy N) (t : Int) : Out (List Char) :=
  if T.isSafe then .ret (Verif.output T.opd t)
  else if isCharTy T.opd.base then .ret (printChar t)
  else .ret (printInt t)

/-- execution with at most `f` nested steps; `none`: not finished -/
def LStmt.exec {N : Names} (Γ : Fin n → PTy N) : Nat → LStmt N n → LState n → Option (Out Unit × LState n)
  | 0, _, _ => none
  | _ + 1, .skip, s => some (.ret (), s)
  | _ + 1, .assign i e, s => some (storing s i (assignVal Γ s.st i e))
  | _ + 1, .opAssign o i e, s => some (storing s i (opAssignVal Γ s.st o i e))
  | _ + 1, .inc i, s => some (storing s i (opAssignVal Γ s.st (.ar .add) i (.const tInt 1)))
  | _ + 1, .dec i, s => some (storing s i (opAssignVal Γ s.st (.ar .sub) i (.const tInt 1)))
  | _ + 1, .input i, s =>
    let r := inputStep (Γ i) (s.st i) s.inp
    some (r.1, { s.write i r.2.1 with inp := r.2.2 })
  | _ + 1, .output e, s =>
    match (do
      let T ← e.ty Γ
      let v ← e.eval Γ s.st
      outputStep T v) with
    | .ret cs => some (.ret (), { s with out := s.out ++ cs })
    | .thrown x => some (.thrown x, s)
    | .fault k => some (.fault k, s)
  | f + 1, .seq a b, s =>
    match a.exec Γ f s with
    | some (.ret _, s') => b.exec Γ f s'
    | r => r
  | f + 1, .ite c a b, s =>
    match c.eval Γ s.st with
    | .ret true => a.exec Γ f s
    | .ret false => b.exec Γ f s
    | .thrown x => some (.thrown x, s)
    | .fault k => some (.fault k, s)
  | f + 1, .while c a, s =>
    match c.eval Γ s.st with
    | .ret true =>
      match a.exec Γ f s with
      | some (.ret _, s') => LStmt.exec Γ f (.while c a) s'
      | r => r
    | .ret false => some (.ret (), s)
    | .thrown x => some (.thrown x, s)
    | .fault k => some (.fault k, s)
  | f + 1, .tryCatch a b, s =>
    match a.exec Γ f s with
    | some (.thrown _, s') => b.exec Γ f { s' with caught := s'.caught + 1 }
    | r => r

end
end Verif
