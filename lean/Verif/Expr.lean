import Verif.Safe

/-!
Programs that use safe integers: expression trees, and statements that change safe variables. A program has `n` variables
of safe types `Γ`; all share the promotion policy `pp` and the exception policy `p`.
-/

namespace Verif
section
variable [Arch]

/-- expressions: variables, constants of built-in types, literals, binary and unary operators -/
inductive Expr (n : Nat)
  | var (i : Fin n)
  /-- a constant `c` of the built-in type `B` -/
  | const (B : ITy) (c : Int)
  /-- a safe literal of type `L` -/
  | lit (L : Opd)
  | bin (o : Arith) (a b : Expr n)
  | neg (a : Expr n)
  | pos (a : Expr n)

/-- what a program is compiled with -/
structure Ctx (n : Nat) where
  pp : PP
  p : EP
  Γ : Fin n → Opd

/-- the type of `a op b`: if an operand is a safe integer then the operator templates of the library apply
(`legal_overload`, safe_base_operations.hpp:362-371), otherwise the operator of the language. Operators between two
literals, or a literal and a built-in value, are not modelled (the property theorems exclude them). -/
def binTy (c : Ctx n) (o : Arith) (T U : Opd) : Out Opd :=
  if T.kind = .safe ∨ U.kind = .safe then arithTy c.pp o T U else .ret (Opd.ofBuiltin (uac T.base U.base))

/-- the value of `a op b` -/
def binVal (c : Ctx n) (o : Arith) (T U : Opd) (t u : Int) : Out Int :=
  if T.kind = .safe ∨ U.kind = .safe then arith c.pp c.p o T U t u
  else match o with
    | .add => cAdd T.base U.base t u
    | .sub => cSub T.base U.base t u
    | .mul => cMul T.base U.base t u
    | .div => cDiv T.base U.base t u
    | .mod => cMod T.base U.base t u

/-- the type of an expression; unary plus (safe_base.hpp:246-248) returns its operand, unary minus (261-268) subtracts it
from the constant 0 of type `int` -/
def Expr.ty (c : Ctx n) : Expr n → Out Opd
  | .var i => .ret (c.Γ i)
  | .const B _ => .ret (Opd.ofBuiltin B)
  | .lit L => .ret L
  | .bin o a b => do binTy c o (← a.ty c) (← b.ty c)
  | .neg a => do binTy c .sub (Opd.ofBuiltin tInt) (← a.ty c)
  | .pos a => a.ty c

/-- the value of an expression, operands evaluated from left to right (C++ leaves the order open) -/
def Expr.eval (c : Ctx n) (s : Fin n → Int) : Expr n → Out Int
  | .var i => .ret (s i)
  | .const _ k => .ret k
  | .lit L => .ret L.lo
  | .bin o a b => do
    let T ← a.ty c
    let U ← b.ty c
    let x ← a.eval c s
    let y ← b.eval c s
    binVal c o T U x y
  | .neg a => do
    let T ← a.ty c
    let x ← a.eval c s
    binVal c .sub (Opd.ofBuiltin tInt) T 0 x
  | .pos a => a.eval c s

/-! ### Statements -/

/-- computations with a store: the outcome and the store afterwards -/
def SM (n : Nat) (α : Type) : Type := (Fin n → Int) → Out α × (Fin n → Int)

instance : Monad (SM n) where
  pure a := fun s => (.ret a, s)
  bind m f := fun s =>
    match m s with
    | (.ret a, s') => f a s'
    | (.thrown e, s') => (.thrown e, s')
    | (.fault k, s') => (.fault k, s')

/-- a computation that does not touch the store -/
def SM.lift (o : Out α) : SM n α := fun s => (o, s)
/-- read the member `m_t` of a variable -/
def SM.read (i : Fin n) : SM n Int := fun s => (.ret (s i), s)
/-- write the member `m_t` of a variable -/
def SM.write (i : Fin n) (v : Int) : SM n Unit := fun s => (.ret (), fun j => if j = i then v else s j)

/-- safe_base.hpp:221-226 `operator=` from a value `v` of type `S`: the validated value is written to `m_t`; for the same type
the defaulted copy assignment (safe_base.hpp:198) -/
def assignFrom (c : Ctx n) (i : Fin n) (S : Opd) (v : Int) : SM n Unit := do
  let w ← SM.lift (construct c.p (c.Γ i) S v)
  SM.write i w

/-- `x op= u` for a safe variable: safe_base_operations.hpp:486-494, 609-617, 734-742, 894-902, 1055-1063:
`t = static_cast<T>(t op u)`: a temporary of type `T` is made (validated), then copied -/
def opAssign (c : Ctx n) (o : Arith) (i : Fin n) (U : Opd) (u : Int) : SM n Unit := do
  let t ← SM.read i
  let S ← SM.lift (arithTy c.pp o (c.Γ i) U)
  let v ← SM.lift (arith c.pp c.p o (c.Γ i) U t u)
  let w ← SM.lift (construct c.p (c.Γ i) S v)
  assignFrom c i (c.Γ i) w

/-- safe_base.hpp:229-234 `++x` and `--x`: `*this = *this op 1` -/
def crement (c : Ctx n) (o : Arith) (i : Fin n) : SM n Unit := do
  let t ← SM.read i
  let S ← SM.lift (arithTy c.pp o (c.Γ i) (Opd.ofBuiltin tInt))
  let v ← SM.lift (arith c.pp c.p o (c.Γ i) (Opd.ofBuiltin tInt) t 1)
  assignFrom c i S v

/-- statements that change a variable -/
inductive Stmt (n : Nat)
  /-- `x = e` -/
  | assign (i : Fin n) (e : Expr n)
  /-- `x op= e` -/
  | opAssign (o : Arith) (i : Fin n) (e : Expr n)
  /-- `++x` or `x++` -/
  | inc (i : Fin n)
  /-- `--x` or `x--` -/
  | dec (i : Fin n)

/-- execution of a statement -/
def Stmt.exec (c : Ctx n) : Stmt n → SM n Unit
  | .assign i e => fun s => (do
      let S ← SM.lift (e.ty c)
      let v ← SM.lift (e.eval c s)
      Verif.assignFrom c i S v : SM n Unit) s
  | .opAssign o i e => fun s => (do
      let U ← SM.lift (e.ty c)
      let u ← SM.lift (e.eval c s)
      Verif.opAssign c o i U u : SM n Unit) s
  | .inc i => crement c .add i
  | .dec i => crement c .sub i

/-- a whole program: each statement in its own `try` block, exceptions are caught and the program goes on with the store as
the statement left it -/
def runAll (c : Ctx n) : List (Stmt n) → (Fin n → Int) → Out (Fin n → Int)
  | [], s => .ret s
  | st :: l, s =>
    match st.exec c s with
    | (.ret _, s') => runAll c l s'
    | (.thrown _, s') => runAll c l s'
    | (.fault k, _) => .fault k

end
end Verif
