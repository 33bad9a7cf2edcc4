import Verif.QuietSpec
import Verif.ExactSpec

/-!
Specification vocabulary for C88: the operations that an execution carries out, with the types and values of their operands, and
which of these are known to go right.
-/

namespace Verif.Spec

/-- an operation that is carried out during an execution -/
inductive Event (N : Names)
  /-- `t op u` -/
  | bin (o : Op2) (T U : PTy N) (t u : Int)
  /-- `-t` -/
  | neg (T : PTy N) (t : Int)
  /-- conversion of `t` of type `T` to the type `S` -/
  | conv (S T : PTy N) (t : Int)
  /-- comparison -/
  | cmp (o : Rel) (T U : PTy N) (t u : Int)
  /-- conversion to `bool` -/
  | truth (T : PTy N) (t : Int)
  /-- input into a variable with the value `old` from the stream `s` -/
  | input (T : PTy N) (old : Int) (s : IStream)
  /-- output -/
  | output (T : PTy N) (t : Int)

/-- what happens next, if there is a result -/
def after {α β : Type} (x : Out α) (f : α → List β) : List β :=
  match x with
  | .ret a => f a
  | _ => []

section
variable [Arch]

/-- the operations carried out for an expression -/
def eEvents {N : Names} (Γ : Fin n → PTy N) (s : Fin n → Int) : LExpr N n → List (Event N)
  | .var _ => []
  | .const _ _ => []
  | .lit _ => []
  | .bin o a b => after (a.ty Γ) fun T => after (b.ty Γ) fun U =>
      eEvents Γ s a ++ after (a.eval Γ s) fun t => eEvents Γ s b ++ after (b.eval Γ s) fun u => [.bin o T U t u]
  | .neg a => after (a.ty Γ) fun T => eEvents Γ s a ++ after (a.eval Γ s) fun t => [.neg T t]
  | .pos a => eEvents Γ s a
  | .cast S a => after (a.ty Γ) fun T => eEvents Γ s a ++ after (a.eval Γ s) fun t => [.conv S T t]

/-- for a condition -/
def cEvents {N : Names} (Γ : Fin n → PTy N) (s : Fin n → Int) : LCond N n → List (Event N)
  | .cmp o a b => after (a.ty Γ) fun T => after (b.ty Γ) fun U =>
      eEvents Γ s a ++ after (a.eval Γ s) fun t => eEvents Γ s b ++ after (b.eval Γ s) fun u => [.cmp o T U t u]
  | .truth a => after (a.ty Γ) fun T => eEvents Γ s a ++ after (a.eval Γ s) fun t => [.truth T t]
  | .not a => cEvents Γ s a
  | .and a b => cEvents Γ s a ++ after (a.eval Γ s) fun x => if x then cEvents Γ s b else []
  | .or a b => cEvents Γ s a ++ after (a.eval Γ s) fun x => if x then [] else cEvents Γ s b

/-- for `x op= e`: the operation, then the conversion of its result -/
def opEvents {N : Names} (Γ : Fin n → PTy N) (s : Fin n → Int) (o : Op2) (i : Fin n) (e : LExpr N n) : List (Event N) :=
  after (e.ty Γ) fun U => eEvents Γ s e ++ after (e.eval Γ s) fun u => after (pBinTy o (Γ i) U) fun S =>
    .bin o (Γ i) U (s i) u :: after (pBinVal o (Γ i) U (s i) u) fun v => [.conv (Γ i) S v]

/-- all operations carried out by `f` nested steps of a program -/
def sEvents {N : Names} (Γ : Fin n → PTy N) : Nat → LStmt N n → LState n → List (Event N)
  | 0, _, _ => []
  | _ + 1, .skip, _ => []
  | _ + 1, .assign i e, s => after (e.ty Γ) fun T => eEvents Γ s.st e ++ after (e.eval Γ s.st) fun v => [.conv (Γ i) T v]
  | _ + 1, .opAssign o i e, s => opEvents Γ s.st o i e
  | _ + 1, .inc i, s => opEvents Γ s.st (.ar .add) i (.const tInt 1)
  | _ + 1, .dec i, s => opEvents Γ s.st (.ar .sub) i (.const tInt 1)
  | _ + 1, .input i, s => [.input (Γ i) (s.st i) s.inp]
  | _ + 1, .output e, s => after (e.ty Γ) fun T => eEvents Γ s.st e ++ after (e.eval Γ s.st) fun v => [.output T v]
  | f + 1, .seq a b, s => sEvents Γ f a s ++
      match a.exec Γ f s with
      | some (.ret _, s') => sEvents Γ f b s'
      | _ => []
  | f + 1, .ite c a b, s => cEvents Γ s.st c ++ after (c.eval Γ s.st) fun x => if x then sEvents Γ f a s else sEvents Γ f b s
  | f + 1, .while c a, s => cEvents Γ s.st c ++ after (c.eval Γ s.st) fun x =>
      if x then sEvents Γ f a s ++
        match a.exec Γ f s with
        | some (.ret _, s') => sEvents Γ f (.while c a) s'
        | _ => []
      else []
  | f + 1, .tryCatch a b, s => sEvents Γ f a s ++
      match a.exec Γ f s with
      | some (.thrown _, s') => sEvents Γ f b { s' with caught := s'.caught + 1 }
      | _ => []

/-! ### operations that are known to go right -/

/-- if the operation returns at all, its value over the integers is within the bounds of the type of the result -/
def Keeps (pp : PP) (p : EP) (T U : Opd) (o : Op2) (t u : Int) : Prop :=
  ∀ S v w, o.safeTy pp T U = .ret S → o.safeVal pp p T U t u = .ret w → imath o t u = some v → S.Wf ∧ S.Has v

/-- the handler throws or traps -/
def Firm (a : Act) : Prop := a = .throw ∨ a = .trap

/-- An operator of the library: all sums, differences and products; the quotients, remainders, shifts and bitwise operations of
`OpCovered`; and all others whose value is within the bounds of the type of the result (or that throw), where quotients,
remainders and shifts are with an exception policy that throws or traps and not as in `QuotWrong`, `ModWrong`, `LeftWrong` and `RightWrong`. -/
def OpClean (pp : PP) (p : EP) (T U : Opd) (o : Op2) (t u : Int) : Prop :=
  OpCovered pp p T U o ∨ (Keeps pp p T U o t u ∧
    match o with
    | .ar .div => Firm p.ae ∧ ∀ R, pp.result .div T U = .ret R → ¬ QuotWrong R T U t u
    | .ar .mod => Firm p.ae ∧ ∀ R, pp.result .mod T U = .ret R → ¬ ModWrong R T U t u
    | .shl => Firm p.ae ∧ Firm p.idb ∧ ∀ R, pp.result .shl T U = .ret R → ¬ LeftWrong R T U t u
    | .shr => Firm p.ae ∧ Firm p.idb ∧ ∀ R, pp.result .shr T U = .ret R → ¬ RightWrong R T U t u
    | .bit _ => True
    | .ar _ => False)

/-- What should happen: the value over the integers, which is within the bounds of the type of the result, or an exception, or
the program does not compile. -/
def OpRight (pp : PP) (p : EP) (T U : Opd) (o : Op2) (t u : Int) : Prop :=
  (∃ S v, o.safeTy pp T U = .ret S ∧ S.Wf ∧ S.Has v ∧ o.safeVal pp p T U t u = .ret v ∧ imath o t u = some v) ∨
  (∃ e, o.safeVal pp p T U t u = .thrown e) ∨ o.safeVal pp p T U t u = .fault .illFormed

/-- A built-in operator: operands and result (for `%` also the quotient) are values of its type; shift counts are less than the
width, and no negative number is shifted. -/
def BareClean (o : Op2) (B C : ITy) (t u : Int) : Prop :=
  (o.cTy B C).In t ∧ (o ≠ .shl → o ≠ .shr → (o.cTy B C).In u) ∧ (∃ v, imath o t u = some v ∧ (o.cTy B C).In v) ∧
  (o = .ar .mod → (o.cTy B C).In (t.tdiv u)) ∧ (o = .shl ∨ o = .shr → u < (o.cTy B C).bits ∧ 0 ≤ t)

/-- The operation goes right: an operator of the library as in `OpClean`, a built-in one as in `BareClean`; conversions, negation and
comparisons of the library without restriction (to `bool`: all), built-in ones if the type has the values; input
that does not leave the variable outside of its range (for built-in types: that succeeds), of character types only to types of the library, and
if there is a number to be read. -/
def Event.Clean {N : Names} : Event N → Prop
  | .bin o T U t u =>
    ((T.isSafe || U.isSafe) = true → ∀ q e, common T.pr U.pr = .ret q → common T.ex U.ex = .ret e →
      OpClean (N.prom q) (N.act e) T.opd U.opd o t u) ∧
    ((T.isSafe || U.isSafe) = false → BareClean o T.opd.base U.opd.base t u)
  | .neg T t => T.isSafe = false → (promote T.opd.base).In (-t)
  | .conv S T t => S.isSafe = false → T.isSafe = false → S.opd.base.In t
  | .cmp _ T U t u => (T.isSafe || U.isSafe) = false → (uac T.opd.base U.opd.base).In t ∧ (uac T.opd.base U.opd.base).In u
  | .truth _ _ => True
  | .input T old s =>
    (T.opd.base.lg = 0 → T.isSafe = true ∧ s.eof = false ∧ s.fail = false ∧ ∃ neg k rest, NumberAt s.buf neg k rest) ∧
    (T.isSafe = true → T.opd.Has (inputStep T old s).2.1) ∧
    (T.isSafe = false → (s.extract T.opd.base id old).2.fail = false ∧
      (T.opd.base.signed = false → (s.buf.dropWhile isWs).head? ≠ some '-'))
  | .output T _ => T.isSafe = true ∨ T.opd.base.lg ≠ 0

/-! ### well-formed programs -/

/-- constants are values of their types, literals and the targets of casts are well-formed types -/
def EProper {N : Names} : LExpr N n → Prop
  | .var _ => True
  | .const B c => B.Ok ∧ B.In c
  | .lit L => PTy.Wf L ∧ ∃ b, L.opd.kind = .lit b
  | .bin _ a b => EProper a ∧ EProper b
  | .neg a => EProper a
  | .pos a => EProper a
  | .cast S a => EProper a ∧ PTy.Wf S ∧ NotLit S.opd

/-- the same for conditions -/
def CProper {N : Names} : LCond N n → Prop
  | .cmp _ a b => EProper a ∧ EProper b
  | .truth a => EProper a
  | .not a => CProper a
  | .and a b => CProper a ∧ CProper b
  | .or a b => CProper a ∧ CProper b

/-- the same for programs -/
def SProper {N : Names} : LStmt N n → Prop
  | .skip => True
  | .assign _ e => EProper e
  | .opAssign _ _ e => EProper e
  | .inc _ => True
  | .dec _ => True
  | .input _ => True
  | .output e => EProper e
  | .seq a b => SProper a ∧ SProper b
  | .ite c a b => CProper c ∧ SProper a ∧ SProper b
  | .while c a => CProper c ∧ SProper a
  | .tryCatch a b => SProper a ∧ SProper b

end
end Verif.Spec
