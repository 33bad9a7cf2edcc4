import Verif.LangSpec

/-!
Specification vocabulary for C92: executions in which the operands of operators are evaluated in any order, also with the
evaluations interleaved. (C++ leaves the order open, except for `&&`, `||` and the conditions of statements.) The first operation that
is carried out and does not return decides: it may be any one in the expression whose own operands have been evaluated.
-/

namespace Verif.Spec
section
variable [Arch]

/-- the evaluation is left with the exception or fault of a part of it -/
inductive Aborts : Out α → Out β → Prop
  | thrown (e : Err) : Aborts (.thrown e) (.thrown e)
  | fault (k : Fault) : Aborts (.fault k) (.fault k)

/-- `r` is an outcome of the evaluation of an expression, in some order -/
inductive AnyE {N : Names} {n : Nat} (Γ : Fin n → PTy N) (s : Fin n → Int) : LExpr N n → Out Int → Prop
  | var i : AnyE Γ s (.var i) (.ret (s i))
  | const B k : AnyE Γ s (.const B k) (.ret k)
  | lit L : AnyE Γ s (.lit L) (.ret L.opd.lo)
  -- both operands have been evaluated
  | bin : a.ty Γ = .ret T → b.ty Γ = .ret U → AnyE Γ s a (.ret x) → AnyE Γ s b (.ret y) → AnyE Γ s (.bin o a b) (pBinVal o T U x y)
  -- the evaluation of either operand may be the first to be left
  | binL : AnyE Γ s a q → Aborts q r → AnyE Γ s (.bin o a b) r
  | binR : AnyE Γ s b q → Aborts q r → AnyE Γ s (.bin o a b) r
  | binTyL : Aborts (a.ty Γ) r → AnyE Γ s (.bin o a b) r
  | binTyR : Aborts (b.ty Γ) r → AnyE Γ s (.bin o a b) r
  | neg : a.ty Γ = .ret T → AnyE Γ s a (.ret x) → AnyE Γ s (.neg a) (negValOf T x)
  | negErr : AnyE Γ s a q → Aborts q r → AnyE Γ s (.neg a) r
  | negTy : Aborts (a.ty Γ) r → AnyE Γ s (.neg a) r
  | pos : AnyE Γ s a r → AnyE Γ s (.pos a) r
  | cast : a.ty Γ = .ret T → AnyE Γ s a (.ret x) → AnyE Γ s (.cast S a) (convTo S T x)
  | castErr : AnyE Γ s a q → Aborts q r → AnyE Γ s (.cast S a) r
  | castTy : Aborts (a.ty Γ) r → AnyE Γ s (.cast S a) r

/-- `r` is an outcome of the evaluation of a condition, in some order; `&&` and `||` evaluate the left operand first -/
inductive AnyC {N : Names} {n : Nat} (Γ : Fin n → PTy N) (s : Fin n → Int) : LCond N n → Out Bool → Prop
  | cmp : a.ty Γ = .ret T → b.ty Γ = .ret U → AnyE Γ s a (.ret x) → AnyE Γ s b (.ret y) → AnyC Γ s (.cmp o a b) (pCompare o T U x y)
  | cmpL : AnyE Γ s a q → Aborts q r → AnyC Γ s (.cmp o a b) r
  | cmpR : AnyE Γ s b q → Aborts q r → AnyC Γ s (.cmp o a b) r
  | cmpTyL : Aborts (a.ty Γ) r → AnyC Γ s (.cmp o a b) r
  | cmpTyR : Aborts (b.ty Γ) r → AnyC Γ s (.cmp o a b) r
  | truth : a.ty Γ = .ret T → AnyE Γ s a (.ret x) → AnyC Γ s (.truth a) (toBool T.ep T.opd x)
  | truthErr : AnyE Γ s a q → Aborts q r → AnyC Γ s (.truth a) r
  | truthTy : Aborts (a.ty Γ) r → AnyC Γ s (.truth a) r
  | not : AnyC Γ s a (.ret x) → AnyC Γ s (.not a) (.ret (! x))
  | notErr : AnyC Γ s a q → Aborts q r → AnyC Γ s (.not a) r
  | andT : AnyC Γ s a (.ret true) → AnyC Γ s b r → AnyC Γ s (.and a b) r
  | andF : AnyC Γ s a (.ret false) → AnyC Γ s (.and a b) (.ret false)
  | andErr : AnyC Γ s a q → Aborts q r → AnyC Γ s (.and a b) r
  | orF : AnyC Γ s a (.ret false) → AnyC Γ s b r → AnyC Γ s (.or a b) r
  | orT : AnyC Γ s a (.ret true) → AnyC Γ s (.or a b) (.ret true)
  | orErr : AnyC Γ s a q → Aborts q r → AnyC Γ s (.or a b) r

/-- what `x op= e` does once the value `u` of `e` is known: compute `x op u`, convert it to the type of `x` -/
def opOnto {N : Names} (Γ : Fin n → PTy N) (s : Fin n → Int) (o : Op2) (i : Fin n) (U : PTy N) (u : Int) : Out Int := do
  let S ← pBinTy o (Γ i) U
  let v ← pBinVal o (Γ i) U (s i) u
  convTo (Γ i) S v

/-- `AnyS Γ p s r s'`: the execution of `p` from `s` may end with the outcome `r` in the state `s'`; the rules of `Big` with
expressions and conditions evaluated in any order -/
inductive AnyS {N : Names} {n : Nat} (Γ : Fin n → PTy N) : LStmt N n → LState n → Out Unit → LState n → Prop
  | skip s : AnyS Γ .skip s (.ret ()) s
  | assign : AnyE Γ s.st (.cast (Γ i) e) (.ret v) → AnyS Γ (.assign i e) s (.ret ()) (s.write i v)
  | assignErr : AnyE Γ s.st (.cast (Γ i) e) q → Aborts q r → AnyS Γ (.assign i e) s r s
  | opAssign : e.ty Γ = .ret U → AnyE Γ s.st e (.ret u) → opOnto Γ s.st o i U u = .ret v →
      AnyS Γ (.opAssign o i e) s (.ret ()) (s.write i v)
  | opAssignOp : e.ty Γ = .ret U → AnyE Γ s.st e (.ret u) → Aborts (opOnto Γ s.st o i U u) r → AnyS Γ (.opAssign o i e) s r s
  | opAssignErr : AnyE Γ s.st e q → Aborts q r → AnyS Γ (.opAssign o i e) s r s
  | opAssignTy : Aborts (e.ty Γ) r → AnyS Γ (.opAssign o i e) s r s
  | inc : AnyS Γ (.opAssign (.ar .add) i (.const tInt 1)) s r s' → AnyS Γ (.inc i) s r s'
  | dec : AnyS Γ (.opAssign (.ar .sub) i (.const tInt 1)) s r s' → AnyS Γ (.dec i) s r s'
  | input : inputStep (Γ i) (s.st i) s.inp = (r, v, rest) → AnyS Γ (.input i) s r { s.write i v with inp := rest }
  | output : e.ty Γ = .ret T → AnyE Γ s.st e (.ret v) → outputStep T v = .ret cs →
      AnyS Γ (.output e) s (.ret ()) { s with out := s.out ++ cs }
  | outputOp : e.ty Γ = .ret T → AnyE Γ s.st e (.ret v) → Aborts (outputStep T v) r → AnyS Γ (.output e) s r s
  | outputErr : AnyE Γ s.st e q → Aborts q r → AnyS Γ (.output e) s r s
  | outputTy : Aborts (e.ty Γ) r → AnyS Γ (.output e) s r s
  | seq : AnyS Γ a s (.ret ()) s1 → AnyS Γ b s1 r s' → AnyS Γ (.seq a b) s r s'
  | seqErr : AnyS Γ a s r s1 → r ≠ .ret () → AnyS Γ (.seq a b) s r s1
  | iteT : AnyC Γ s.st c (.ret true) → AnyS Γ a s r s' → AnyS Γ (.ite c a b) s r s'
  | iteF : AnyC Γ s.st c (.ret false) → AnyS Γ b s r s' → AnyS Γ (.ite c a b) s r s'
  | iteErr : AnyC Γ s.st c q → Aborts q r → AnyS Γ (.ite c a b) s r s
  | whileT : AnyC Γ s.st c (.ret true) → AnyS Γ (.seq a (.while c a)) s r s' → AnyS Γ (.while c a) s r s'
  | whileF : AnyC Γ s.st c (.ret false) → AnyS Γ (.while c a) s (.ret ()) s
  | whileErr : AnyC Γ s.st c q → Aborts q r → AnyS Γ (.while c a) s r s
  | noCatch : AnyS Γ a s r s' → (∀ e, r ≠ .thrown e) → AnyS Γ (.tryCatch a b) s r s'
  | handle : AnyS Γ a s (.thrown e) s1 → AnyS Γ b { s1 with caught := s1.caught + 1 } r s' → AnyS Γ (.tryCatch a b) s r s'

/-- in no order does the execution come upon undefined behaviour, a failed assertion or something that does not compile -/
def NeverFaults {N : Names} {n : Nat} (Γ : Fin n → PTy N) (p : LStmt N n) (s : LState n) : Prop :=
  ∀ r s' k, AnyS Γ p s r s' → r ≠ .fault k

/-- the same outcome, up to the code of an exception -/
def SameKind (r r' : Out Unit) : Prop := r = r' ∨ ((∃ e, r = .thrown e) ∧ ∃ e, r' = .thrown e)

end
end Verif.Spec
