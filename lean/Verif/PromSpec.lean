import Verif.QuietSpec

/-!
Specification vocabulary for C101: the same program with other promotion policies.
-/

namespace Verif.Spec
section
variable [Arch]

/-- the policy classes of a program with other meanings of the promotion policies -/
def promN (N : Names) (g : N.P → PP) : Names := { N with prom := g }

/-- a type of a program, with other meanings of the promotion policies -/
def promT {N : Names} (g : N.P → PP) (T : PTy N) : PTy (promN N g) := ⟨T.opd, T.pr, T.ex⟩

/-- an expression with other meanings of the promotion policies -/
def promE {N : Names} (g : N.P → PP) : LExpr N n → LExpr (promN N g) n
  | .var i => .var i
  | .const B c => .const B c
  | .lit L => .lit (promT g L)
  | .bin o x y => .bin o (promE g x) (promE g y)
  | .neg x => .neg (promE g x)
  | .pos x => .pos (promE g x)
  | .cast S x => .cast (promT g S) (promE g x)

/-- a condition with other meanings of the promotion policies -/
def promC {N : Names} (g : N.P → PP) : LCond N n → LCond (promN N g) n
  | .cmp o x y => .cmp o (promE g x) (promE g y)
  | .truth x => .truth (promE g x)
  | .not c => .not (promC g c)
  | .and c d => .and (promC g c) (promC g d)
  | .or c d => .or (promC g c) (promC g d)

/-- a program with other meanings of the promotion policies; nothing else is changed -/
def promS {N : Names} (g : N.P → PP) : LStmt N n → LStmt (promN N g) n
  | .skip => .skip
  | .assign i e => .assign i (promE g e)
  | .opAssign o i e => .opAssign o i (promE g e)
  | .inc i => .inc i
  | .dec i => .dec i
  | .input i => .input i
  | .output e => .output (promE g e)
  | .seq x y => .seq (promS g x) (promS g y)
  | .ite c x y => .ite (promC g c) (promS g x) (promS g y)
  | .while c x => .while (promC g c) (promS g x)
  | .tryCatch x y => .tryCatch (promS g x) (promS g y)

/-- the expression applies operators in `O` only, and its constants, literals and casts have base types in `K` -/
def EUses {N : Names} (O : Op2 → Prop) (K : ITy → Prop) : LExpr N n → Prop
  | .var _ => True
  | .const B _ => K B
  | .lit L => K L.opd.base
  | .bin o a b => O o ∧ EUses O K a ∧ EUses O K b
  | .neg a => EUses O K a
  | .pos a => EUses O K a
  | .cast S a => K S.opd.base ∧ EUses O K a

/-- the same for conditions -/
def CUses {N : Names} (O : Op2 → Prop) (K : ITy → Prop) : LCond N n → Prop
  | .cmp _ a b => EUses O K a ∧ EUses O K b
  | .truth a => EUses O K a
  | .not a => CUses O K a
  | .and a b => CUses O K a ∧ CUses O K b
  | .or a b => CUses O K a ∧ CUses O K b

/-- the same for programs -/
def SUses {N : Names} (O : Op2 → Prop) (K : ITy → Prop) : LStmt N n → Prop
  | .skip => True
  | .assign _ e => EUses O K e
  | .opAssign o _ e => O o ∧ EUses O K e
  | .inc _ => True
  | .dec _ => True
  | .input _ => True
  | .output e => EUses O K e
  | .seq a b => SUses O K a ∧ SUses O K b
  | .ite c a b => CUses O K c ∧ SUses O K a ∧ SUses O K b
  | .while c a => CUses O K c ∧ SUses O K a
  | .tryCatch a b => SUses O K a ∧ SUses O K b

/-- The policies `g` give the operators in `O` (which contain + and -, used by increments, decrements and unary minus) and the
comparisons on base types in `K` the same type as those of the program; the types in `K` lead to types in `K`. -/
structure AgreeOn (N : Names) (g : N.P → PP) (O : Op2 → Prop) (K : ITy → Prop) : Prop where
  op : ∀ q o (T U : Opd), O o → K T.base → K U.base → (g q).result (opName o) T U = (N.prom q).result (opName o) T U
  cmp : ∀ q (T U : Opd), K T.base → K U.base → (g q).result .cmp T U = (N.prom q).result .cmp T U
  closed : ∀ q o (T U : Opd) R, O o → K T.base → K U.base → (N.prom q).result (opName o) T U = .ret R → K R
  builtin : ∀ o B C, O o → K B → K C → K (o.cTy B C)
  promoted : ∀ B, K B → K (promote B)
  int : K tInt
  add : O (.ar .add)
  sub : O (.ar .sub)

/-- The base types on which the emulation of a machine agrees with the machine: it has them, and they are not unsigned and
narrower than `int`. -/
def HostTy (m : CppCfg) (B : ITy) : Prop := CppListed m B ∧ (B.lg < m.i → B.signed = true)

/-- the operators other than shifts -/
def NoShift (o : Op2) : Prop := o ≠ .shl ∧ o ≠ .shr

/-- signed types of the machine that are not wider than `int` -/
def SmallTy (m : CppCfg) (B : ITy) : Prop := CppListed m B ∧ B.signed = true ∧ B.lg ≤ m.i

end
end Verif.Spec
