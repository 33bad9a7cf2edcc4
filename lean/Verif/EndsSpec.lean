import Verif.OrderSpec

/-!
Specification vocabulary for C92 and C98: executions, in any order of evaluation, that have not ended.
-/

namespace Verif.Spec
section
variable [Arch]

/-- `Unfinished Γ f p s`: some execution of `p` from `s`, operands evaluated in any order, is still going on after `f` nested steps -/
inductive Unfinished {N : Names} {n : Nat} (Γ : Fin n → PTy N) : Nat → LStmt N n → LState n → Prop
  | zero : Unfinished Γ 0 p s
  | seqL : Unfinished Γ f a s → Unfinished Γ (f + 1) (.seq a b) s
  | seqR : AnyS Γ a s (.ret ()) s1 → Unfinished Γ f b s1 → Unfinished Γ (f + 1) (.seq a b) s
  | iteT : AnyC Γ s.st c (.ret true) → Unfinished Γ f a s → Unfinished Γ (f + 1) (.ite c a b) s
  | iteF : AnyC Γ s.st c (.ret false) → Unfinished Γ f b s → Unfinished Γ (f + 1) (.ite c a b) s
  | body : AnyC Γ s.st c (.ret true) → Unfinished Γ f a s → Unfinished Γ (f + 1) (.while c a) s
  | round : AnyC Γ s.st c (.ret true) → AnyS Γ a s (.ret ()) s1 → Unfinished Γ f (.while c a) s1 → Unfinished Γ (f + 1) (.while c a) s
  | try : Unfinished Γ f a s → Unfinished Γ (f + 1) (.tryCatch a b) s
  | handler : AnyS Γ a s (.thrown e) s1 → Unfinished Γ f b { s1 with caught := s1.caught + 1 } → Unfinished Γ (f + 1) (.tryCatch a b) s

/-- all executions, in all orders, end, and their length has a bound -/
def AlwaysEnds {N : Names} {n : Nat} (Γ : Fin n → PTy N) (p : LStmt N n) (s : LState n) : Prop := ∃ f, ¬ Unfinished Γ f p s

end
end Verif.Spec
