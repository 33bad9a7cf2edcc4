import Verif.BareSpec

/-!
Specification vocabulary for C100: the same program with variables of wider types.
-/

namespace Verif.Spec
section
variable [Arch]

/-- integral promotion turns the type into a signed type: all signed types, and unsigned types narrower than `int` -/
def PromotedSigned (B : ITy) : Prop := (promote B).signed = true

/-- the type `T'` is of the same kind as `T` and has the same policies, its range contains that of `T`, and it is promoted to a signed
type that is as wide as that to which `T` is promoted -/
structure Widens {N : Names} (T T' : PTy N) : Prop where
  promotion : T'.pr = T.pr
  exception : T'.ex = T.ex
  kind : T'.opd.kind = T.opd.kind
  signed : PromotedSigned T.opd.base
  signed' : PromotedSigned T'.opd.base
  width : (promote T.opd.base).lg ≤ (promote T'.opd.base).lg
  low : T'.opd.lo ≤ T.opd.lo
  high : T.opd.hi ≤ T'.opd.hi

/-- constants, literals and casts in the expression have types that are promoted to signed types -/
def ESigned {N : Names} : LExpr N n → Prop
  | .var _ => True
  | .const B _ => PromotedSigned B
  | .lit L => PromotedSigned L.opd.base
  | .bin _ a b => ESigned a ∧ ESigned b
  | .neg a => ESigned a
  | .pos a => ESigned a
  | .cast S a => PromotedSigned S.opd.base ∧ ESigned a

/-- the same for conditions -/
def CSigned {N : Names} : LCond N n → Prop
  | .cmp _ a b => ESigned a ∧ ESigned b
  | .truth a => ESigned a
  | .not a => CSigned a
  | .and a b => CSigned a ∧ CSigned b
  | .or a b => CSigned a ∧ CSigned b

/-- the same for programs -/
def SSigned {N : Names} : LStmt N n → Prop
  | .skip => True
  | .assign _ e => ESigned e
  | .opAssign _ _ e => ESigned e
  | .inc _ => True
  | .dec _ => True
  | .input _ => True
  | .output e => ESigned e
  | .seq a b => SSigned a ∧ SSigned b
  | .ite c a b => CSigned c ∧ SSigned a ∧ SSigned b
  | .while c a => CSigned c ∧ SSigned a
  | .tryCatch a b => SSigned a ∧ SSigned b

end
end Verif.Spec
