import Verif.BlameSpec
import Verif.RunSpec

/-!
Specification vocabulary for C88, programs with exception handlers: what a program may do over the integers if every statement
is free to throw.
-/

namespace Verif.Spec
section
variable [Arch]

/-- `May Γ p s b s'`: over the integers `p`, started in `s`, can end in `s'`, normally (`b = true`) or by an exception (`b = false`),
where every statement does what it says or throws. A statement that throws changes nothing; input that throws may change its
variable, within its range, and the input stream. Sequence, condition, loop and handler are as usual. -/
inductive May {N : Names} {n : Nat} (Γ : Fin n → PTy N) : LStmt N n → RState n → Bool → RState n → Prop
  | basic : Basic p → iexec 1 p s.ints = some (some t) → May Γ p s true (s.put t)
  | basicExc : Basic p → May Γ p s false s
  | input : NumberAt s.inp.buf sg k r.buf → May Γ (.input i) s true (s.read i k r)
  | inputExc : (Γ i).opd.Has v → May Γ (.input i) s false (s.read i v r)
  | seq : May Γ a s true s1 → May Γ b s1 r s' → May Γ (.seq a b) s r s'
  | seqExc : May Γ a s false s1 → May Γ (.seq a b) s false s1
  | iteTrue : icond s.st c = some true → May Γ a s r s' → May Γ (.ite c a b) s r s'
  | iteFalse : icond s.st c = some false → May Γ b s r s' → May Γ (.ite c a b) s r s'
  | iteExc : May Γ (.ite c a b) s false s
  | whileTrue : icond s.st c = some true → May Γ a s true s1 → May Γ (.while c a) s1 r s' → May Γ (.while c a) s r s'
  | whileBody : icond s.st c = some true → May Γ a s false s1 → May Γ (.while c a) s false s1
  | whileFalse : icond s.st c = some false → May Γ (.while c a) s true s
  | whileExc : May Γ (.while c a) s false s
  | try : May Γ a s true s' → May Γ (.tryCatch a b) s true s'
  | catch : May Γ a s false s1 → May Γ b s1 r s' → May Γ (.tryCatch a b) s r s'

/-- `MayGo Γ f p s`: over the integers `p`, started in `s`, can be unfinished after `f` nested steps, where every statement does what
it says or throws -/
inductive MayGo {N : Names} {n : Nat} (Γ : Fin n → PTy N) : Nat → LStmt N n → RState n → Prop
  | zero : MayGo Γ 0 p s
  | seq : MayGo Γ f a s → MayGo Γ (f + 1) (.seq a b) s
  | seqNext : May Γ a s true s1 → MayGo Γ f b s1 → MayGo Γ (f + 1) (.seq a b) s
  | iteTrue : icond s.st c = some true → MayGo Γ f a s → MayGo Γ (f + 1) (.ite c a b) s
  | iteFalse : icond s.st c = some false → MayGo Γ f b s → MayGo Γ (f + 1) (.ite c a b) s
  | while : icond s.st c = some true → MayGo Γ f a s → MayGo Γ (f + 1) (.while c a) s
  | whileNext : icond s.st c = some true → May Γ a s true s1 → MayGo Γ f (.while c a) s1 → MayGo Γ (f + 1) (.while c a) s
  | try : MayGo Γ f a s → MayGo Γ (f + 1) (.tryCatch a b) s
  | catch : May Γ a s false s1 → MayGo Γ f b s1 → MayGo Γ (f + 1) (.tryCatch a b) s

end
end Verif.Spec
