import Verif.LangSpec

/-!
Vocabulary for property C96: interval analysis of a program from the declared ranges of its variables, as a textbook has it. What
is taken from C++ and from the library is which type an operator is computed in: `uac` for native promotion, `cppResult` for the policy
`cpp`; for automatic promotion the rule is stated here.
-/

namespace Verif.Spec
section
variable [Arch]

/-- an interval of values, and the C++ type of the expression -/
structure Hull where
  ty : ITy
  lo : Int
  hi : Int
  deriving DecidableEq

omit [Arch] in
/-- the values of a type -/
def Hull.of (T : Opd) : Hull := ⟨T.base, T.lo, T.hi⟩

omit [Arch] in
/-- the least and the greatest result of an operator for operands from `[a, b]` and `[c, d]`; nothing if a divisor may be zero -/
def span : Arith → Int → Int → Int → Int → Option (Int × Int)
  | .add, a, b, c, d => some (a + c, b + d)
  | .sub, a, b, c, d => some (a - d, b - c)
  | .mul, a, b, c, d => some (min (min (a * c) (a * d)) (min (b * c) (b * d)), max (max (a * c) (a * d)) (max (b * c) (b * d)))
  | .div, a, b, c, d =>
    if c ≤ 0 ∧ 0 ≤ d then none
    else some (min (min (a.tdiv c) (a.tdiv d)) (min (b.tdiv c) (b.tdiv d)), max (max (a.tdiv c) (a.tdiv d)) (max (b.tdiv c) (b.tdiv d)))
  | .mod, _, _, _, _ => none

/-- the operators for which the analysis is described: with native promotion all but `%`, with the other policies `+ - *` -/
def knows : PP → Arith → Bool
  | _, .add => true
  | _, .sub => true
  | _, .mul => true
  | .native, .div => true
  | _, _ => false

/-- the smallest type of the given signedness that represents both numbers -/
def smallest (s : Bool) (m M : Int) : Option ITy :=
  ((List.range (Arch.maxLg + 1)).find? fun k => decide ((⟨s, k⟩ : ITy).In m ∧ (⟨s, k⟩ : ITy).In M)).map (ITy.mk s)

/-- the type of `x op y`. Native promotion: that of C++. Automatic promotion: the smallest type that represents all results; it is
unsigned if both operands are, except for a difference. The policy `cpp`: that of C++ on the machine described by the policy. -/
def opTy : PP → Arith → Hull → Hull → Option ITy
  | .native, _, x, y => some (uac x.ty y.ty)
  | .automatic, o, x, y => do
    let r ← span o x.lo x.hi y.lo y.hi
    smallest (decide (o = .sub) || x.ty.signed || y.ty.signed) r.1 r.2
  | .cpp m, _, x, y => match cppResult m x.ty y.ty with
    | .ret R => some R
    | _ => none

/-- the type in which `x` and `y` are compared -/
def cmpTy : PP → Rel → Hull → Hull → Option ITy
  | .native, _, x, y => some (uac x.ty y.ty)
  | .automatic, _, x, y => smallest (x.ty.signed || y.ty.signed) (min x.lo y.lo) (max x.hi y.hi)
  | .cpp m, o, x, y => match (if o = .gt ∨ o = .le then cppResult m y.ty x.ty else cppResult m x.ty y.ty) with
    | .ret R => some R
    | _ => none

omit [Arch] in
/-- the type `R` represents all values of both operands -/
def Both (R : ITy) (x y : Hull) : Prop := R.In x.lo ∧ R.In x.hi ∧ R.In y.lo ∧ R.In y.hi

omit [Arch] in
/-- a product that is zero because one factor is always zero; no negative number has to be converted to an unsigned type -/
def Null (R : ITy) (x y : Hull) : Prop :=
  (x.lo = 0 ∧ x.hi = 0 ∧ (R.signed = true ∨ 0 ≤ y.lo)) ∨ (y.lo = 0 ∧ y.hi = 0 ∧ (R.signed = true ∨ 0 ≤ x.lo))

instance (R : ITy) (x y : Hull) : Decidable (Both R x y) := by unfold Both; infer_instance
instance (R : ITy) (x y : Hull) : Decidable (Null R x y) := by unfold Null; infer_instance

/-- the interval of `x op y`; nothing if the type does not represent the operands or the result, or for a division by zero -/
def hull2 (pp : PP) (o : Arith) (x y : Hull) : Option Hull := do
  let r ← span o x.lo x.hi y.lo y.hi
  let R ← opTy pp o x y
  if (Both R x y ∨ (o = .mul ∧ Null R x y)) ∧ R.In r.1 ∧ R.In r.2 then some ⟨R, r.1, r.2⟩ else none

/-- the interval of an expression; nothing if some operation may overflow its C++ type, or divide by zero, or an operand may not be
representable, or the operand of a cast may be out of range. A built-in constant counts as any value of its type; unary minus
is the difference to a constant of type `int`. -/
def hull {N : Names} (pp : PP) (Γ : Fin n → PTy N) : LExpr N n → Option Hull
  | .var i => some (Hull.of (Γ i).opd)
  | .const B _ => some ⟨B, B.min, B.max⟩
  | .lit L => some (Hull.of L.opd)
  | .bin (.ar o) a b => do hull2 pp o (← hull pp Γ a) (← hull pp Γ b)
  | .neg a => do hull2 pp .sub ⟨tInt, tInt.min, tInt.max⟩ (← hull pp Γ a)
  | .pos a => hull pp Γ a
  | .cast S a => do
    let x ← hull pp Γ a
    if S.opd.lo ≤ x.lo ∧ x.hi ≤ S.opd.hi then some (Hull.of S.opd) else none
  | _ => none

/-- the interval of the expression is within the declared range of the variable -/
def within {N : Names} (pp : PP) (Γ : Fin n → PTy N) (i : Fin n) (e : LExpr N n) : Prop :=
  ∃ h, hull pp Γ e = some h ∧ (Γ i).opd.lo ≤ h.lo ∧ h.hi ≤ (Γ i).opd.hi

/-- interval analysis of conditions: both sides have intervals that the type of the comparison represents; no integer is used as a
condition -/
def CHulls {N : Names} (pp : PP) (Γ : Fin n → PTy N) : LCond N n → Prop
  | .cmp o a b => ∃ x y R, hull pp Γ a = some x ∧ hull pp Γ b = some y ∧ cmpTy pp o x y = some R ∧ Both R x y
  | .truth _ => False
  | .not a => CHulls pp Γ a
  | .and a b => CHulls pp Γ a ∧ CHulls pp Γ b
  | .or a b => CHulls pp Γ a ∧ CHulls pp Γ b

/-- interval analysis of programs: what is assigned is within the declared range; nothing is read, because any number may come -/
def Hulls {N : Names} (pp : PP) (Γ : Fin n → PTy N) : LStmt N n → Prop
  | .skip => True
  | .assign i e => within pp Γ i e
  | .opAssign o i e => within pp Γ i (.bin o (.var i) e)
  | .inc i => within pp Γ i (.bin (.ar .add) (.var i) (.const tInt 1))
  | .dec i => within pp Γ i (.bin (.ar .sub) (.var i) (.const tInt 1))
  | .input _ => False
  | .output e => ∃ x, hull pp Γ e = some x
  | .seq a b => Hulls pp Γ a ∧ Hulls pp Γ b
  | .ite c a b => CHulls pp Γ c ∧ Hulls pp Γ a ∧ Hulls pp Γ b
  | .while c a => CHulls pp Γ c ∧ Hulls pp Γ a
  | .tryCatch a b => Hulls pp Γ a ∧ Hulls pp Γ b

omit [Arch] in
/-- a variable or a cast occurs in the expression -/
def hasVar {N : Names} : LExpr N n → Bool
  | .var _ => true
  | .bin _ a b => hasVar a || hasVar b
  | .neg a => hasVar a
  | .pos a => hasVar a
  | .cast _ _ => true
  | _ => false

/-- a safe type with the policies `q` and `e` -/
def Having {N : Names} (q : N.P) (e : N.E) (T : PTy N) : Prop :=
  PTy.Wf T ∧ T.opd.kind = .safe ∧ T.pr = some q ∧ T.ex = some e

/-- the expressions of C96: variables, built-in constants and literals; the operators that the analysis knows, unary minus and plus, where a variable occurs in an
operand; casts to safe types with the same policies -/
def SimpleE {N : Names} (q : N.P) (e : N.E) : LExpr N n → Prop
  | .var _ => True
  | .const B c => B.Ok ∧ B.In c
  | .lit L => PTy.Wf L ∧ (∃ b, L.opd.kind = .lit b) ∧ L.pr = none ∧ L.ex = none
  | .bin (.ar o) a b => SimpleE q e a ∧ SimpleE q e b ∧ knows (N.prom q) o = true ∧ (hasVar a || hasVar b) = true
  | .neg a => SimpleE q e a ∧ hasVar a = true
  | .pos a => SimpleE q e a ∧ hasVar a = true
  | .cast S a => SimpleE q e a ∧ Having q e S
  | _ => False

/-- the conditions of C96 -/
def SimpleC {N : Names} (q : N.P) (e : N.E) : LCond N n → Prop
  | .cmp _ a b => SimpleE q e a ∧ SimpleE q e b ∧ (hasVar a || hasVar b) = true
  | .truth a => SimpleE q e a ∧ hasVar a = true
  | .not a => SimpleC q e a
  | .and a b => SimpleC q e a ∧ SimpleC q e b
  | .or a b => SimpleC q e a ∧ SimpleC q e b

/-- the programs of C96 -/
def SimpleS {N : Names} (q : N.P) (e : N.E) : LStmt N n → Prop
  | .skip => True
  | .assign _ a => SimpleE q e a
  | .opAssign o i a => SimpleE q e (.bin o (.var i) a)
  | .inc _ => True
  | .dec _ => True
  | .input _ => True
  | .output a => SimpleE q e a ∧ hasVar a = true
  | .seq a b => SimpleS q e a ∧ SimpleS q e b
  | .ite c a b => SimpleC q e c ∧ SimpleS q e a ∧ SimpleS q e b
  | .while c a => SimpleC q e c ∧ SimpleS q e a
  | .tryCatch a b => SimpleS q e a ∧ SimpleS q e b

/-- all variables are of safe types with the same promotion policy and the same exception policy, which traps -/
def OnePolicy {N : Names} (q : N.P) (e : N.E) (Γ : Fin n → PTy N) : Prop :=
  (N.prom q).Wf ∧ (N.act e).ae = .trap ∧ ∀ i, Having q e (Γ i)

end
end Verif.Spec
