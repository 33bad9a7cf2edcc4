import Verif.Props.Lang

/-!
The execution of programs (`LStmt.exec`) follows the rules of the statements of C++ (`Spec.Big`): C60.
-/

namespace Verif.Props
open Spec Lang

section
variable [Arch]

private theorem leaves_or (o : Out α) : (∃ v, o = .ret v) ∨ ∃ r, Leaves o r := by
  cases o with
  | ret v => exact Or.inl ⟨v, rfl⟩
  | thrown e => exact Or.inr ⟨_, .thrown e⟩
  | fault k => exact Or.inr ⟨_, .fault k⟩

private theorem leaves_eq {o : Out α} {r : Out Unit} (h : Leaves o r) :
    (∃ e, o = .thrown e ∧ r = .thrown e) ∨ ∃ k, o = .fault k ∧ r = .fault k := by
  cases h
  · exact Or.inl ⟨_, rfl, rfl⟩
  · exact Or.inr ⟨_, rfl, rfl⟩

private theorem storing_leaves {o : Out Int} {r : Out Unit} (h : Leaves o r) (s : LState n) (i : Fin n) : storing s i o = (r, s) := by
  cases h <;> rfl

private theorem exec_big {N : Names} {n : Nat} (Γ : Fin n → PTy N) : ∀ (f : Nat) (p : LStmt N n) (s : LState n) (r : Out Unit)
    (s' : LState n), p.exec Γ f s = some (r, s') → Big Γ p s r s'
  | 0, p, s, r, s', h => by cases p <;> cases h
  | f + 1, .skip, s, r, s', h => by
    simp only [LStmt.exec] at h; cases h; exact .skip s
  | f + 1, .assign i e, s, r, s', h => by
    simp only [LStmt.exec] at h
    rcases leaves_or (assignVal Γ s.st i e) with ⟨v, e1⟩ | ⟨r', e1⟩
    · rw [e1] at h; cases h; exact .assign e1
    · rw [storing_leaves e1] at h; cases h; exact .assignErr e1
  | f + 1, .opAssign o i e, s, r, s', h => by
    simp only [LStmt.exec] at h
    rcases leaves_or (opAssignVal Γ s.st o i e) with ⟨v, e1⟩ | ⟨r', e1⟩
    · rw [e1] at h; cases h; exact .opAssign e1
    · rw [storing_leaves e1] at h; cases h; exact .opAssignErr e1
  | f + 1, .inc i, s, r, s', h => by
    simp only [LStmt.exec] at h
    rcases leaves_or (opAssignVal Γ s.st (.ar .add) i (.const tInt 1)) with ⟨v, e1⟩ | ⟨r', e1⟩
    · rw [e1] at h; cases h; exact .inc (.opAssign e1)
    · rw [storing_leaves e1] at h; cases h; exact .inc (.opAssignErr e1)
  | f + 1, .dec i, s, r, s', h => by
    simp only [LStmt.exec] at h
    rcases leaves_or (opAssignVal Γ s.st (.ar .sub) i (.const tInt 1)) with ⟨v, e1⟩ | ⟨r', e1⟩
    · rw [e1] at h; cases h; exact .dec (.opAssign e1)
    · rw [storing_leaves e1] at h; cases h; exact .dec (.opAssignErr e1)
  | f + 1, .input i, s, r, s', h => by
    simp only [LStmt.exec] at h; cases h; exact .input rfl
  | f + 1, .output e, s, r, s', h => by
    simp only [LStmt.exec] at h
    rcases leaves_or (e.ty Γ) with ⟨T, e1⟩ | ⟨r', e1⟩
    · rcases leaves_or (e.eval Γ s.st) with ⟨v, e2⟩ | ⟨r', e2⟩
      · rw [e1, e2] at h
        simp only [ret_bind] at h
        rcases leaves_or (outputStep T v) with ⟨cs, e3⟩ | ⟨r', e3⟩
        · rw [e3] at h; cases h; exact .output e1 e2 e3
        · have := e3
          generalize outputStep T v = o at h this
          cases this <;> cases h <;> exact .outputErr e1 e2 e3
      · rw [e1] at h
        have := e2
        simp only [ret_bind] at h
        generalize e.eval Γ s.st = o at h this
        cases this <;> cases h <;> exact .outputVal e1 e2
    · have := e1
      generalize e.ty Γ = o at h this
      cases this <;> cases h <;> exact .outputTy e1
  | f + 1, .seq a b, s, r, s', h => by
    simp only [LStmt.exec] at h
    rcases ha : a.exec Γ f s with _ | ⟨o1, s1⟩ <;> rw [ha] at h
    · cases h
    · have k := exec_big Γ f a s o1 s1 ha
      cases o1 with
      | ret _ => exact .seq k (exec_big Γ f b s1 r s' h)
      | thrown e => cases h; exact .seqErr k nofun
      | fault e => cases h; exact .seqErr k nofun
  | f + 1, .ite c a b, s, r, s', h => by
    simp only [LStmt.exec] at h
    rcases leaves_or (c.eval Γ s.st) with ⟨v, e1⟩ | ⟨r', e1⟩
    · rw [e1] at h
      cases v
      · exact .iteF e1 (exec_big Γ f b s r s' h)
      · exact .iteT e1 (exec_big Γ f a s r s' h)
    · have := e1
      generalize c.eval Γ s.st = o at h this
      cases this <;> cases h <;> exact .iteErr e1
  | f + 1, .while c a, s, r, s', h => by
    simp only [LStmt.exec] at h
    rcases leaves_or (c.eval Γ s.st) with ⟨v, e1⟩ | ⟨r', e1⟩
    · rw [e1] at h
      cases v
      · cases h; exact .whileF e1
      · dsimp only at h
        rcases ha : a.exec Γ f s with _ | ⟨o1, s1⟩ <;> rw [ha] at h
        · cases h
        · have k := exec_big Γ f a s o1 s1 ha
          cases o1 with
          | ret _ => exact .whileT e1 (.seq k (exec_big Γ f (.while c a) s1 r s' h))
          | thrown e => cases h; exact .whileT e1 (.seqErr k nofun)
          | fault e => cases h; exact .whileT e1 (.seqErr k nofun)
    · have := e1
      generalize c.eval Γ s.st = o at h this
      cases this <;> cases h <;> exact .whileErr e1
  | f + 1, .tryCatch a b, s, r, s', h => by
    simp only [LStmt.exec] at h
    rcases ha : a.exec Γ f s with _ | ⟨o1, s1⟩ <;> rw [ha] at h
    · cases h
    · have k := exec_big Γ f a s o1 s1 ha
      cases o1 with
      | ret _ => cases h; exact .noCatch k nofun
      | thrown e => exact .handle k (exec_big Γ f b _ r s' h)
      | fault e => cases h; exact .noCatch k nofun

private theorem big_exec {N : Names} {n : Nat} (Γ : Fin n → PTy N) {p : LStmt N n} {s : LState n} {r : Out Unit} {s' : LState n}
    (h : Big Γ p s r s') : ∃ f, p.exec Γ f s = some (r, s') := by
  induction h with
  | skip s => exact ⟨1, rfl⟩
  | assign e1 => exact ⟨1, by simp only [LStmt.exec, e1]; rfl⟩
  | assignErr e1 => exact ⟨1, by simp only [LStmt.exec, storing_leaves e1]⟩
  | opAssign e1 => exact ⟨1, by simp only [LStmt.exec, e1]; rfl⟩
  | opAssignErr e1 => exact ⟨1, by simp only [LStmt.exec, storing_leaves e1]⟩
  | inc _ ih =>
    obtain ⟨f, h⟩ := ih
    cases f with
    | zero => cases h
    | succ f => exact ⟨f + 1, h⟩
  | dec _ ih =>
    obtain ⟨f, h⟩ := ih
    cases f with
    | zero => cases h
    | succ f => exact ⟨f + 1, h⟩
  | input e1 => exact ⟨1, by simp only [LStmt.exec, e1]⟩
  | output e1 e2 e3 => exact ⟨1, by simp only [LStmt.exec, e1, e2, e3, ret_bind]⟩
  | outputTy e1 =>
    refine ⟨1, ?_⟩
    simp only [LStmt.exec]
    rcases leaves_eq e1 with ⟨x, h1, rfl⟩ | ⟨x, h1, rfl⟩ <;> rw [h1] <;> rfl
  | outputVal e1 e2 =>
    refine ⟨1, ?_⟩
    simp only [LStmt.exec, e1, ret_bind]
    rcases leaves_eq e2 with ⟨x, h1, rfl⟩ | ⟨x, h1, rfl⟩ <;> rw [h1] <;> rfl
  | outputErr e1 e2 e3 =>
    refine ⟨1, ?_⟩
    simp only [LStmt.exec, e1, e2, ret_bind]
    rcases leaves_eq e3 with ⟨x, h1, rfl⟩ | ⟨x, h1, rfl⟩ <;> rw [h1] <;> rfl
  | seq _ _ ih1 ih2 =>
    obtain ⟨f, h⟩ := ih1
    obtain ⟨g, k⟩ := ih2
    refine ⟨max f g + 1, ?_⟩
    simp only [LStmt.exec]
    rw [C59_bound Γ f _ _ _ h _ (Nat.le_max_left f g)]
    exact C59_bound Γ g _ _ _ k _ (Nat.le_max_right f g)
  | seqErr _ hr ih =>
    obtain ⟨f, h⟩ := ih
    refine ⟨f + 1, ?_⟩
    simp only [LStmt.exec]
    rw [h]
    rename_i r _ _ _
    cases r with
    | ret _ => exact absurd rfl hr
    | thrown e => rfl
    | fault e => rfl
  | iteT e1 _ ih =>
    obtain ⟨f, h⟩ := ih
    exact ⟨f + 1, by simp only [LStmt.exec, e1]; exact h⟩
  | iteF e1 _ ih =>
    obtain ⟨f, h⟩ := ih
    exact ⟨f + 1, by simp only [LStmt.exec, e1]; exact h⟩
  | iteErr e1 =>
    refine ⟨1, ?_⟩
    simp only [LStmt.exec]
    rcases leaves_eq e1 with ⟨x, h1, rfl⟩ | ⟨x, h1, rfl⟩ <;> rw [h1] <;> rfl
  | whileT e1 _ ih =>
    obtain ⟨f, h⟩ := ih
    cases f with
    | zero => cases h
    | succ f =>
      refine ⟨f + 1, ?_⟩
      simp only [LStmt.exec, e1]
      simp only [LStmt.exec] at h
      exact h
  | whileF e1 => exact ⟨1, by simp only [LStmt.exec, e1]⟩
  | whileErr e1 =>
    refine ⟨1, ?_⟩
    simp only [LStmt.exec]
    rcases leaves_eq e1 with ⟨x, h1, rfl⟩ | ⟨x, h1, rfl⟩ <;> rw [h1] <;> rfl
  | noCatch _ hr ih =>
    obtain ⟨f, h⟩ := ih
    refine ⟨f + 1, ?_⟩
    simp only [LStmt.exec]
    rw [h]
    rename_i r _ _ _
    cases r with
    | ret _ => rfl
    | thrown e => exact absurd rfl (hr e)
    | fault e => rfl
  | handle _ _ ih1 ih2 =>
    obtain ⟨f, h⟩ := ih1
    obtain ⟨g, k⟩ := ih2
    refine ⟨max f g + 1, ?_⟩
    simp only [LStmt.exec]
    rw [C59_bound Γ f _ _ _ h _ (Nat.le_max_left f g)]
    exact C59_bound Γ g _ _ _ k _ (Nat.le_max_right f g)

/-- The execution of any program ends with an outcome in a state exactly if the rules of the statements of C++ say so: sequences,
conditionals, loops and handlers do what they do in C++, for any values of the expressions. -/
theorem C60_rules {N : Names} {n : Nat} (Γ : Fin n → PTy N) (p : LStmt N n) (s : LState n) (r : Out Unit) (s' : LState n) :
    Ends Γ p s r s' ↔ Big Γ p s r s' := by
  constructor
  · rintro ⟨k, h⟩
    exact exec_big Γ k p s r s' (h k (Nat.le_refl k))
  · intro h
    obtain ⟨k, h⟩ := big_exec Γ h
    exact ⟨k, fun f hf => C59_bound Γ k p s _ h f hf⟩

/-- The execution of a program is deterministic: the rules give at most one outcome and state. -/
theorem C60_unique {N : Names} {n : Nat} (Γ : Fin n → PTy N) (p : LStmt N n) (s : LState n) (r r' : Out Unit) (s1 s2 : LState n)
    (h1 : Big Γ p s r s1) (h2 : Big Γ p s r' s2) : r = r' ∧ s1 = s2 := by
  obtain ⟨k, h⟩ := (C60_rules Γ p s r s1).2 h1
  obtain ⟨l, g⟩ := (C60_rules Γ p s r' s2).2 h2
  have := (h (max k l) (Nat.le_max_left k l)).symm.trans (g (max k l) (Nat.le_max_right k l))
  cases this
  exact ⟨rfl, rfl⟩

/-- What a loop does is what its first iteration followed by the loop does. -/
theorem C60_unroll {N : Names} {n : Nat} (Γ : Fin n → PTy N) (c : LCond N n) (a : LStmt N n) (s : LState n) (r : Out Unit)
    (s' : LState n) : Ends Γ (.while c a) s r s' ↔ Ends Γ (.ite c (.seq a (.while c a)) .skip) s r s' := by
  rw [C60_rules, C60_rules]
  constructor
  · intro h
    cases h with
    | whileT e h => exact .iteT e h
    | whileF e => exact .iteF e (.skip s)
    | whileErr e => exact .iteErr e
  · intro h
    cases h with
    | iteT e h => exact .whileT e h
    | iteF e h => cases h; exact .whileF e
    | iteErr e => exact .whileErr e

/-- Statements that succeed can be moved out of a `try` block: an exception of the rest is handled in the state they left. -/
theorem C60_try_seq {N : Names} {n : Nat} (Γ : Fin n → PTy N) (a b c : LStmt N n) (s s1 : LState n) (r : Out Unit) (s' : LState n)
    (ha : Ends Γ a s (.ret ()) s1) :
    Ends Γ (.tryCatch (.seq a b) c) s r s' ↔ Ends Γ (.seq a (.tryCatch b c)) s r s' := by
  rw [C60_rules] at ha
  rw [C60_rules, C60_rules]
  have key : ∀ {o s2}, Big Γ (.seq a b) s o s2 → Big Γ b s1 o s2 := by
    intro o s2 h
    cases h with
    | seq h1 h2 => rw [(C60_unique Γ a s _ _ _ _ ha h1).2]; exact h2
    | seqErr h1 h2 => exact absurd (C60_unique Γ a s _ _ _ _ h1 ha).1 h2
  constructor
  · intro h
    cases h with
    | noCatch h hr => exact .seq ha (.noCatch (key h) hr)
    | handle h h2 => exact .seq ha (.handle (key h) h2)
  · intro h
    cases h with
    | seq h1 h2 =>
      obtain rfl := (C60_unique Γ a s _ _ _ _ ha h1).2
      cases h2 with
      | noCatch h hr => exact .noCatch (.seq ha h) hr
      | handle h h3 => exact .handle (.seq ha h) h3
    | seqErr h1 h2 => exact absurd (C60_unique Γ a s _ _ _ _ h1 ha).1 h2

end

/-! ### programs meeting the hypotheses -/

section
attribute [local instance] lp64

private def one : Names := ⟨Unit, Unit, inferInstance, inferInstance, fun _ => .native, fun _ => strictException⟩
private def oneΓ : Fin 1 → PTy one := fun _ => ⟨Opd.ofSafe i8, some (), some ()⟩
private def at0 (v : Int) : LState 1 := ⟨fun _ => v, ⟨[], false, false⟩, [], 0⟩

-- `try { x = 7; x *= 100; } catch (...) { ++x; }`: the handler sees the 7
private def tr : LStmt one 1 :=
  .tryCatch (.seq (.assign 0 (.const i32 7)) (.opAssign (.ar .mul) 0 (.const i32 100))) (.inc 0)

example : ∃ s', Big oneΓ tr (at0 0) (.ret ()) s' ∧ s'.st 0 = 8 ∧ s'.caught = 1 :=
  ⟨((tr.exec oneΓ 10 (at0 0)).getD (.ret (), at0 0)).2, (C60_rules oneΓ tr (at0 0) _ _).1
    ⟨10, fun f hf => C59_bound oneΓ 10 tr (at0 0) (.ret (), _) (by rfl) f hf⟩, by decide +kernel, by decide +kernel⟩

example : Ends oneΓ (.assign 0 (.const i32 7)) (at0 0) (.ret ()) ((at0 0).write 0 7) :=
  (C60_rules oneΓ _ _ _ _).2 (.assign (by decide +kernel))

end
end Verif.Props
