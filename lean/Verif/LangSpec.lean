import Verif.Lang
import Verif.SafeSpec
import Mathlib.Data.Int.Bitwise

/-!
Specification vocabulary for programs: the same program over the integers (no types, no overflow), and which programs are
covered by the theorems.
-/

namespace Verif.Spec

/-! ### programs over the integers -/

/-- a binary operation on integers; division truncates; bitwise operations are those on two's complement numbers with infinitely
many bits; none: by zero, by a negative shift count, or (not needed) shifts to the right of negative numbers -/
def imath : Op2 → Int → Int → Option Int
  | .ar .div, t, u => if u = 0 then none else some (t.tdiv u)
  | .ar .mod, t, u => if u = 0 then none else some (t.tmod u)
  | .ar .add, t, u => some (t + u)
  | .ar .sub, t, u => some (t - u)
  | .ar .mul, t, u => some (t * u)
  | .bit .bor, t, u => some (t.lor u)
  | .bit .band, t, u => some (t.land u)
  | .bit .bxor, t, u => some (t.xor u)
  | .shl, t, u => if 0 ≤ u then some (t * 2 ^ u.toNat) else none
  | .shr, t, u => if 0 ≤ u ∧ 0 ≤ t then some (t / 2 ^ u.toNat) else none

/-- the integer value of an expression: types and casts play no role -/
def ival {N : Names} (s : Fin n → Int) : LExpr N n → Option Int
  | .var i => some (s i)
  | .const _ k => some k
  | .lit L => some L.opd.lo
  | .bin o a b => do imath o (← ival s a) (← ival s b)
  | .neg a => do some (- (← ival s a))
  | .pos a => ival s a
  | .cast _ a => ival s a

/-- the value of a condition -/
def icond {N : Names} (s : Fin n → Int) : LCond N n → Option Bool
  | .cmp o a b => do some (rel o (← ival s a) (← ival s b))
  | .truth a => do some (decide ((← ival s a) ≠ 0))
  | .not a => do some (! (← icond s a))
  | .and a b => do if ← icond s a then icond s b else some false
  | .or a b => do if ← icond s a then some true else icond s b

/-- the state of a program over the integers: variables, characters to be read, characters written -/
structure IState (n : Nat) where
  st : Fin n → Int
  inp : List Char
  out : List Char

/-- change a variable -/
def IState.write (s : IState n) (i : Fin n) (v : Int) : IState n := { s with st := fun j => if j = i then v else s.st j }

/-- read a number: white space, an optional sign, digits -/
def iread (b : List Char) : Option (Int × List Char) :=
  let (neg, ds, rest) := scan (b.dropWhile isWs)
  if ds.isEmpty then none else some (if neg then -digitsVal ds else digitsVal ds, rest)

/-- execution over the integers. Outer `none`: not finished after `f` nested steps; inner `none`: undefined. Exceptions do not
exist. -/
def iexec {N : Names} : Nat → LStmt N n → IState n → Option (Option (IState n))
  | 0, _, _ => none
  | _ + 1, .skip, s => some (some s)
  | _ + 1, .assign i e, s => some ((ival s.st e).map (s.write i))
  | _ + 1, .opAssign o i e, s => some (do some (s.write i (← imath o (s.st i) (← ival s.st e))))
  | _ + 1, .inc i, s => some (some (s.write i (s.st i + 1)))
  | _ + 1, .dec i, s => some (some (s.write i (s.st i - 1)))
  | _ + 1, .input i, s => some ((iread s.inp).map fun r => { s.write i r.1 with inp := r.2 })
  | _ + 1, .output e, s => some ((ival s.st e).map fun v => { s with out := s.out ++ printInt v })
  | f + 1, .seq a b, s =>
    match iexec f a s with
    | some (some s') => iexec f b s'
    | r => r
  | f + 1, .ite c a b, s =>
    match icond s.st c with
    | some true => iexec f a s
    | some false => iexec f b s
    | none => some none
  | f + 1, .while c a, s =>
    match icond s.st c with
    | some true =>
      match iexec f a s with
      | some (some s') => iexec f (.while c a) s'
      | r => r
    | some false => some (some s)
    | none => some none
  | f + 1, .tryCatch a _, s => iexec f a s

/-- forget what only the machine has -/
def abst (s : LState n) : IState n := ⟨s.st, s.inp.buf, s.out⟩

/-! ### well-formed and covered programs -/

section
variable [Arch]

/-- a type of a program: a built-in type has no policies, a safe type has both, the flag of a literal type tells whether it
has an exception policy -/
def PTy.Wf {N : Names} (T : PTy N) : Prop :=
  T.opd.Wf ∧ (T.opd.kind = .builtin → T.pr = none ∧ T.ex = none) ∧
  (T.opd.kind = .safe → T.pr ≠ none ∧ T.ex ≠ none) ∧ (∀ b, T.opd.kind = .lit b → b = T.ex.isSome)

/-- no exception policy ignores arithmetic errors: each throws or traps; all promotion policies are usable -/
def Careful (N : Names) : Prop := (∀ e, (N.act e).ae = .throw ∨ (N.act e).ae = .trap) ∧ ∀ q, (N.prom q).Wf

/-- all exception policies trap -/
def Trapping (N : Names) : Prop := (∀ e, (N.act e).ae = .trap) ∧ ∀ q, (N.prom q).Wf

/-- the types of the variables -/
def GoodVars {N : Names} (Γ : Fin n → PTy N) : Prop := ∀ i, PTy.Wf (Γ i) ∧ NotLit (Γ i).opd

/-- the range invariant -/
def Ranged {N : Names} (Γ : Fin n → PTy N) (s : Fin n → Int) : Prop := ∀ i, (Γ i).opd.Has (s i)

/-- the type `R` is at least as wide as the types of both operands (always so for native promotion) -/
def Wide (R : ITy) (T U : Opd) : Prop := T.base.digits ≤ R.digits ∧ U.base.digits ≤ R.digits

/-- bitwise operators on ranges without negative numbers that the result type represents -/
def PlainBits (R : ITy) (T U : Opd) : Prop := 0 ≤ T.lo ∧ 0 ≤ U.lo ∧ T.hi ≤ R.max ∧ U.hi ≤ R.max

/-- `&` with a mask: the result type represents both ranges, and one of them has no negative numbers and is within the bound of
the type of the result -/
def Masked (pp : PP) (R : ITy) (T U : Opd) : Prop :=
  (R.In T.lo ∧ R.In T.hi ∧ R.In U.lo ∧ R.In U.hi) ∧
  ((0 ≤ T.lo ∧ ∀ S, bitwiseTy pp .band T U = .ret S → T.hi ≤ S.hi) ∨
   (0 ≤ U.lo ∧ ∀ S, bitwiseTy pp .band T U = .ret S → U.hi ≤ S.hi))

/-- Operand types for which `a op b` is known to be right, for the promotion policy `pp` and exception policy `p`:
addition, subtraction, multiplication always; division if the result type represents both operands and is as wide as their
types or represents every quotient (always so for native promotion); remainder if the result type is as wide as the
operand types, the dividend is never its minimum and the bounds of the result type are right; bitwise operations of
non-negative ranges that fit the result type, and `&` with a mask; shifts as in C26, with a policy that throws on them or traps, or for
operand ranges without values that make the shift fail. -/
def OpCovered (pp : PP) (p : EP) (T U : Opd) : Op2 → Prop
  | .ar .div => ∀ R, pp.result .div T U = .ret R → FitsIn R T ∧ FitsIn R U ∧
      (Wide R T U ∨ ∀ x y, T.Has x → U.Has y → y ≠ 0 → R.In (x.tdiv y))
  | .ar .mod => (∀ R, pp.result .mod T U = .ret R → Wide R T U ∧ (R.signed = true → ¬ T.Has R.min)) ∧
      ∀ S, arithTy pp .mod T U = .ret S → S.Wf ∧ ∀ t u, T.Has t → U.Has u → u ≠ 0 → S.Has (t.tmod u)
  | .ar _ => True
  | .bit o => ∀ R, pp.result o.binOp T U = .ret R → R.Ok ∧ (PlainBits R T U ∨ (o = .band ∧ Masked pp R T U))
  | .shl => ((p.idb = .throw ∨ p.ae = .trap) ∨ ∀ t u R, T.Has t → U.Has u → pp.result .shl T U = .ret R → ShlFree R t u) ∧
      ∀ R, pp.result .shl T U = .ret R → ShlCovered R T U
  | .shr => ((p.idb = .throw ∨ p.ae = .trap) ∨ ∀ t u R, T.Has t → U.Has u → pp.result .shr T U = .ret R → ShrFree R t u) ∧
      ∀ R, pp.result .shr T U = .ret R → ShrCovered R T U ∧ ∀ u, U.Has u → ¬ FullWidth R u

/-- an operator of the library on covered operand types -/
def BinCovered {N : Names} (o : Op2) (T U : PTy N) : Prop :=
  (T.isSafe = true ∨ U.isSafe = true) ∧
  ∀ q e, common T.pr U.pr = .ret q → common T.ex U.ex = .ret e → OpCovered (N.prom q) (N.act e) T.opd U.opd o

/-- a conversion of the library, or a built-in one that preserves all values -/
def ConvCovered {N : Names} (S T : PTy N) : Prop :=
  PTy.Wf S ∧ NotLit S.opd ∧ (S.isSafe = true ∨ T.isSafe = true ∨ ∀ v, T.opd.base.In v → S.opd.base.In v)

/-- a comparison of the library, or a built-in one whose common type represents the values of both operands -/
def CmpCovered {N : Names} (T U : PTy N) : Prop :=
  (T.isSafe = true ∨ U.isSafe = true) ∨ ∀ v, T.opd.Has v ∨ U.opd.Has v → (uac T.opd.base U.opd.base).In v

/-- covered expressions: every operator, comparison and conversion is one of the library (on covered operand types) -/
def ECovered {N : Names} (Γ : Fin n → PTy N) : LExpr N n → Prop
  | .var _ => True
  | .const B c => B.Ok ∧ B.In c
  | .lit L => PTy.Wf L ∧ ∃ b, L.opd.kind = .lit b
  | .bin o a b => ECovered Γ a ∧ ECovered Γ b ∧
      ∀ T U, a.ty Γ = .ret T → b.ty Γ = .ret U → BinCovered o T U
  | .neg a => ECovered Γ a ∧ ∀ T, a.ty Γ = .ret T → T.isSafe = true
  | .pos a => ECovered Γ a
  | .cast S a => ECovered Γ a ∧ ∀ T, a.ty Γ = .ret T → ConvCovered S T

/-- covered conditions -/
def CCovered {N : Names} (Γ : Fin n → PTy N) : LCond N n → Prop
  | .cmp _ a b => ECovered Γ a ∧ ECovered Γ b ∧
      ∀ T U, a.ty Γ = .ret T → b.ty Γ = .ret U → CmpCovered T U
  | .truth a => ECovered Γ a
  | .not a => CCovered Γ a
  | .and a b => CCovered Γ a ∧ CCovered Γ b
  | .or a b => CCovered Γ a ∧ CCovered Γ b

/-- `x op= e` -/
def AssignCovered {N : Names} (Γ : Fin n → PTy N) (o : Op2) (i : Fin n) (e : LExpr N n) : Prop :=
  ECovered Γ e ∧ ∀ U, e.ty Γ = .ret U → BinCovered o (Γ i) U

/-- covered statements. Variables that are read are of safe types with the full range of their base type (otherwise an
exception leaves them out of range, C37) that is not a character type. What is written is of a safe type, or of a built-in
type that is not a character type. -/
def SCovered {N : Names} (Γ : Fin n → PTy N) : LStmt N n → Prop
  | .skip => True
  | .assign i e => ECovered Γ e ∧ ∀ T, e.ty Γ = .ret T → ConvCovered (Γ i) T
  | .opAssign o i e => AssignCovered Γ o i e
  | .inc i => (Γ i).isSafe = true
  | .dec i => (Γ i).isSafe = true
  | .input i => (Γ i).isSafe = true ∧ (Γ i).opd.base.lg ≠ 0 ∧ (Γ i).opd.lo = (Γ i).opd.base.min ∧
      (Γ i).opd.hi = (Γ i).opd.base.max
  | .output e => ECovered Γ e ∧ ∀ T, e.ty Γ = .ret T → T.isSafe = true ∨ T.opd.base.lg ≠ 0
  | .seq a b => SCovered Γ a ∧ SCovered Γ b
  | .ite c a b => CCovered Γ c ∧ SCovered Γ a ∧ SCovered Γ b
  | .while c a => CCovered Γ c ∧ SCovered Γ a
  | .tryCatch a b => SCovered Γ a ∧ SCovered Γ b

/-- the execution of `p` from the state `s` ends with outcome `r` in the state `s'` -/
def Ends {N : Names} {n : Nat} (Γ : Fin n → PTy N) (p : LStmt N n) (s : LState n) (r : Out Unit) (s' : LState n) : Prop :=
  ∃ k, ∀ f, k ≤ f → p.exec Γ f s = some (r, s')

/-- the statement is left with the exception or fault of the expression evaluated in it -/
inductive Leaves : Out α → Out Unit → Prop
  | thrown (e : Err) : Leaves (.thrown e) (.thrown e)
  | fault (k : Fault) : Leaves (.fault k) (.fault k)

/-- The statements of C++, as rules: `Big Γ p s r s'` if the execution of `p` from `s` ends with the outcome `r` in the state `s'`.
The values of expressions and conditions are those of the model. -/
inductive Big {N : Names} {n : Nat} (Γ : Fin n → PTy N) : LStmt N n → LState n → Out Unit → LState n → Prop
  | skip s : Big Γ .skip s (.ret ()) s
  -- `x = e`, `x op= e`, `++x`, `--x`: the new value is stored, unless its computation is left
  | assign : assignVal Γ s.st i e = .ret v → Big Γ (.assign i e) s (.ret ()) (s.write i v)
  | assignErr : Leaves (assignVal Γ s.st i e) r → Big Γ (.assign i e) s r s
  | opAssign : opAssignVal Γ s.st o i e = .ret v → Big Γ (.opAssign o i e) s (.ret ()) (s.write i v)
  | opAssignErr : Leaves (opAssignVal Γ s.st o i e) r → Big Γ (.opAssign o i e) s r s
  | inc : Big Γ (.opAssign (.ar .add) i (.const tInt 1)) s r s' → Big Γ (.inc i) s r s'
  | dec : Big Γ (.opAssign (.ar .sub) i (.const tInt 1)) s r s' → Big Γ (.dec i) s r s'
  -- input stores into the variable also when it throws
  | input : inputStep (Γ i) (s.st i) s.inp = (r, v, rest) → Big Γ (.input i) s r { s.write i v with inp := rest }
  | output : e.ty Γ = .ret T → e.eval Γ s.st = .ret v → outputStep T v = .ret cs →
      Big Γ (.output e) s (.ret ()) { s with out := s.out ++ cs }
  | outputTy : Leaves (e.ty Γ) r → Big Γ (.output e) s r s
  | outputVal : e.ty Γ = .ret T → Leaves (e.eval Γ s.st) r → Big Γ (.output e) s r s
  | outputErr : e.ty Γ = .ret T → e.eval Γ s.st = .ret v → Leaves (outputStep T v) r → Big Γ (.output e) s r s
  | seq : Big Γ a s (.ret ()) s1 → Big Γ b s1 r s' → Big Γ (.seq a b) s r s'
  | seqErr : Big Γ a s r s1 → r ≠ .ret () → Big Γ (.seq a b) s r s1
  | iteT : c.eval Γ s.st = .ret true → Big Γ a s r s' → Big Γ (.ite c a b) s r s'
  | iteF : c.eval Γ s.st = .ret false → Big Γ b s r s' → Big Γ (.ite c a b) s r s'
  | iteErr : Leaves (c.eval Γ s.st) r → Big Γ (.ite c a b) s r s
  | whileT : c.eval Γ s.st = .ret true → Big Γ (.seq a (.while c a)) s r s' → Big Γ (.while c a) s r s'
  | whileF : c.eval Γ s.st = .ret false → Big Γ (.while c a) s (.ret ()) s
  | whileErr : Leaves (c.eval Γ s.st) r → Big Γ (.while c a) s r s
  | noCatch : Big Γ a s r s' → (∀ e, r ≠ .thrown e) → Big Γ (.tryCatch a b) s r s'
  -- the handler starts where the exception was thrown
  | handle : Big Γ a s (.thrown e) s1 → Big Γ b { s1 with caught := s1.caught + 1 } r s' → Big Γ (.tryCatch a b) s r s'

end
end Verif.Spec
