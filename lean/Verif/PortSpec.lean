import Verif.LangSpec

/-!
Specification vocabulary for C83: what is left of a program if the types, the casts, the policies and the handlers are taken away, and what
it computes over the integers.
-/

namespace Verif.Spec

/-- an expression without types -/
inductive UExpr (n : Nat)
  | var (i : Fin n)
  | num (k : Int)
  | bin (o : Op2) (a b : UExpr n)
  | neg (a : UExpr n)

/-- a condition without types -/
inductive UCond (n : Nat)
  | cmp (o : Rel) (a b : UExpr n)
  | truth (a : UExpr n)
  | not (a : UCond n)
  | and (a b : UCond n)
  | or (a b : UCond n)

/-- a statement without types and handlers -/
inductive UStmt (n : Nat)
  | skip
  | assign (i : Fin n) (e : UExpr n)
  | opAssign (o : Op2) (i : Fin n) (e : UExpr n)
  | inc (i : Fin n)
  | dec (i : Fin n)
  | input (i : Fin n)
  | output (e : UExpr n)
  | seq (a b : UStmt n)
  | ite (c : UCond n) (a b : UStmt n)
  | while (c : UCond n) (a : UStmt n)

/-- the text of an expression: the type of a constant, casts and the unary plus are dropped; a literal is its value -/
def textE {N : Names} : LExpr N n → UExpr n
  | .var i => .var i
  | .const _ k => .num k
  | .lit L => .num L.opd.lo
  | .bin o a b => .bin o (textE a) (textE b)
  | .neg a => .neg (textE a)
  | .pos a => textE a
  | .cast _ a => textE a

/-- the text of a condition -/
def textC {N : Names} : LCond N n → UCond n
  | .cmp o a b => .cmp o (textE a) (textE b)
  | .truth a => .truth (textE a)
  | .not a => .not (textC a)
  | .and a b => .and (textC a) (textC b)
  | .or a b => .or (textC a) (textC b)

/-- the text of a statement; of `try { a } catch(...) { b }` it is that of `a` -/
def textS {N : Names} : LStmt N n → UStmt n
  | .skip => .skip
  | .assign i e => .assign i (textE e)
  | .opAssign o i e => .opAssign o i (textE e)
  | .inc i => .inc i
  | .dec i => .dec i
  | .input i => .input i
  | .output e => .output (textE e)
  | .seq a b => .seq (textS a) (textS b)
  | .ite c a b => .ite (textC c) (textS a) (textS b)
  | .while c a => .while (textC c) (textS a)
  | .tryCatch a _ => textS a

/-- the value of an expression over the integers -/
def uval (s : Fin n → Int) : UExpr n → Option Int
  | .var i => some (s i)
  | .num k => some k
  | .bin o a b => do imath o (← uval s a) (← uval s b)
  | .neg a => do some (- (← uval s a))

/-- the value of a condition -/
def ucond (s : Fin n → Int) : UCond n → Option Bool
  | .cmp o a b => do some (rel o (← uval s a) (← uval s b))
  | .truth a => do some (decide ((← uval s a) ≠ 0))
  | .not a => do some (! (← ucond s a))
  | .and a b => do if ← ucond s a then ucond s b else some false
  | .or a b => do if ← ucond s a then some true else ucond s b

/-- execution over the integers, as `iexec` (LangSpec.lean) -/
def uexec : Nat → UStmt n → IState n → Option (Option (IState n))
  | 0, _, _ => none
  | _ + 1, .skip, s => some (some s)
  | _ + 1, .assign i e, s => some ((uval s.st e).map (s.write i))
  | _ + 1, .opAssign o i e, s => some (do some (s.write i (← imath o (s.st i) (← uval s.st e))))
  | _ + 1, .inc i, s => some (some (s.write i (s.st i + 1)))
  | _ + 1, .dec i, s => some (some (s.write i (s.st i - 1)))
  | _ + 1, .input i, s => some ((iread s.inp).map fun r => { s.write i r.1 with inp := r.2 })
  | _ + 1, .output e, s => some ((uval s.st e).map fun v => { s with out := s.out ++ printInt v })
  | f + 1, .seq a b, s =>
    match uexec f a s with
    | some (some s') => uexec f b s'
    | r => r
  | f + 1, .ite c a b, s =>
    match ucond s.st c with
    | some true => uexec f a s
    | some false => uexec f b s
    | none => some none
  | f + 1, .while c a, s =>
    match ucond s.st c with
    | some true =>
      match uexec f a s with
      | some (some s') => uexec f (.while c a) s'
      | r => r
    | some false => some (some s)
    | none => some none

/-- over the integers, the program `p` ends from the state `s`: in a state, or (none) undefined -/
def Means (p : UStmt n) (s : IState n) (r : Option (IState n)) : Prop := ∃ f, uexec f p s = some r

/-- the two programs do the same over the integers -/
def IntEq (p q : UStmt n) : Prop := ∀ s r, Means p s r ↔ Means q s r

/-- the program has no handlers -/
def NoTry {N : Names} : LStmt N n → Prop
  | .seq a b => NoTry a ∧ NoTry b
  | .ite _ a b => NoTry a ∧ NoTry b
  | .while _ a => NoTry a
  | .tryCatch _ _ => False
  | _ => True

end Verif.Spec
