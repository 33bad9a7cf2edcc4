import Verif.PromSpec
import Verif.BareSpec

/-!
Specification vocabulary for C102: the same program with automatic instead of native promotion.
-/

namespace Verif.Spec
section

/-- the same program with automatic promotion -/
abbrev autoOf (N : Names) : N.P → PP := fun _ => .automatic

/-- the type is signed, and -1 and 1 are among its values: all signed built-in and safe types, and ranges on both sides of zero -/
structure Mid (T : Opd) : Prop where
  signed : T.base.signed = true
  low : T.lo ≤ -1
  high : 1 ≤ T.hi

/-- `+`, `-` or `*` -/
def Ring (o : Op2) : Prop := o = .ar .add ∨ o = .ar .sub ∨ o = .ar .mul

/-- sums, differences and products of variables, signed constants, and casts to types on both sides of zero; no literals -/
def ERing {N : Names} : LExpr N n → Prop
  | .var _ => True
  | .const B _ => B.signed = true
  | .lit _ => False
  | .bin o a b => Ring o ∧ ERing a ∧ ERing b
  | .neg a => ERing a
  | .pos a => ERing a
  | .cast S a => Mid S.opd ∧ ERing a

/-- the same for conditions -/
def CRing {N : Names} : LCond N n → Prop
  | .cmp _ a b => ERing a ∧ ERing b
  | .truth a => ERing a
  | .not a => CRing a
  | .and a b => CRing a ∧ CRing b
  | .or a b => CRing a ∧ CRing b

/-- the same for programs -/
def SRing {N : Names} : LStmt N n → Prop
  | .skip => True
  | .assign _ e => ERing e
  | .opAssign o _ e => Ring o ∧ ERing e
  | .inc _ => True
  | .dec _ => True
  | .input _ => True
  | .output e => ERing e
  | .seq a b => SRing a ∧ SRing b
  | .ite c a b => CRing c ∧ SRing a ∧ SRing b
  | .while c a => CRing c ∧ SRing a
  | .tryCatch a b => SRing a ∧ SRing b

end
end Verif.Spec
