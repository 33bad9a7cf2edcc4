import Verif.ReleaseSpec
import Verif.Proofs.Release
import Verif.Props.Hull

/-!
Property C97: what compiles with a policy that traps does the same with every other exception policy; in particular a program that
interval analysis accepts (C96) computes the values of the program over the integers whatever the exception policy.
-/

namespace Verif.Props
open Spec Lang

/-! ### policies -/

/-- The policy that traps for everything, in the place of any other. -/
theorem C97_strictest (p : EP) : TrapsFor strictTrap p := by
  intro e
  cases e <;> exact Or.inr rfl

/-- One policy is in the place of the other exactly if for every kind of error it traps or both have handlers that react alike to every
error of that kind. -/
theorem C97_policies (q p : EP) :
    TrapsFor q p ↔ ∀ e a b, q.act (makeAction e) = some a → p.act (makeAction e) = some b → a = .trap ∨ a.run e = b.run e := by
  have trap : ∀ (a : Act) (e : Err), a.run e = .fault .illFormed → a = .trap := fun a e h => by
    cases a with
    | trap => rfl
    | user f =>
      change (if f.contains e then Out.ret () else Out.thrown e) = _ at h
      split at h <;> cases h
    | _ => cases h
  constructor
  · intro h e a b ha hb
    have h := h e
    unfold dispatch at h
    rw [ha, hb] at h
    exact h.symm.imp (trap a e) id
  · intro h e
    unfold dispatch
    rcases ha : q.act (makeAction e) with _ | a
    · exact Or.inr rfl
    · rcases hb : p.act (makeAction e) with _ | b
      · cases e <;> cases hb <;> cases ha
      · rcases h e a b ha hb with rfl | h
        · exact Or.inr rfl
        · exact Or.inl h

section
variable [Arch]

/-! ### operations -/

/-- An operator under the trapping policy is rejected or gives what it gives under the other one. -/
theorem C97_operators (q p : EP) (h : TrapsFor q p) (pp : PP) (o : Op2) (T U : Opd) (t u : Int) :
    o.safeVal pp q T U t u = o.safeVal pp p T U t u ∨ o.safeVal pp q T U t u = .fault .illFormed :=
  Release.rel_op h pp o T U t u

/-- Likewise comparisons. -/
theorem C97_comparisons (q p : EP) (h : TrapsFor q p) (pp : PP) (o : Rel) (T U : Opd) (t u : Int) :
    compare pp q o T U t u = compare pp p o T U t u ∨ compare pp q o T U t u = .fault .illFormed :=
  Release.rel_compare h pp o T U t u

/-- Likewise construction, assignment and conversion of safe types. -/
theorem C97_conversions (q p : EP) (h : TrapsFor q p) (S T : Opd) (R : ITy) (t : Int) :
    (construct q S T t = construct p S T t ∨ construct q S T t = .fault .illFormed) ∧
    (toBuiltin q R T t = toBuiltin p R T t ∨ toBuiltin q R T t = .fault .illFormed) ∧
    (toBool q T t = toBool p T t ∨ toBool q T t = .fault .illFormed) ∧
    (defaultConstruct q = defaultConstruct p ∨ defaultConstruct q = .fault .illFormed) := by
  refine ⟨?_, Release.rel_toBuiltin h R T t, Release.rel_toBool h T t, Release.rel_default h⟩
  unfold construct
  exact Release.Upto.ite (.refl _) (Release.rel_validate h ..)

/-- Likewise input, with the value read and the stream. -/
theorem C97_input (q p : EP) (h : TrapsFor q p) (T : Opd) (old : Int) (s : IStream) :
    input q T old s = input p T old s ∨ (input q T old s).1 = .fault .illFormed :=
  Release.rel_input h T old s

/-! ### programs -/

omit [Arch] in
private theorem storing_rel {s : LState n} {i : Fin n} {v v' : Out Int} (h : Release.Upto v v') :
    some (storing s i v) = some (storing s i v') ∨ ∃ s', some (storing s i v) = some (.fault .illFormed, s') := by
  rcases h with rfl | rfl
  · exact Or.inl rfl
  · exact Or.inr ⟨s, rfl⟩

/-- An execution of a program, of any length and from any state, with policies that trap meets an operation that is rejected, or it is
step by step the execution with the other policies: the same outcome, values, output, exceptions caught, or no end so far. No
coverage is assumed. -/
theorem C97_program {N : Names} (a : N.E → EP) (h : ∀ n, TrapsFor (N.act n) (a n)) (Γ : Fin n → PTy N) (f : Nat) :
    ∀ (p : LStmt N n) (s : LState n),
      p.exec Γ f s = (underS a p).exec (fun i => underT a (Γ i)) f s ∨ ∃ s', p.exec Γ f s = some (.fault .illFormed, s') := by
  induction f with
  | zero => exact fun p s => Or.inl rfl
  | succ f ih =>
    intro p s
    cases p with
    | skip => exact Or.inl rfl
    | assign i e => exact storing_rel (Release.rel_assignVal h Γ s.st i e)
    | opAssign o i e => exact storing_rel (Release.rel_opAssignVal h Γ s.st o i e)
    | inc i => exact storing_rel (Release.rel_opAssignVal h Γ s.st (.ar .add) i (.const tInt 1))
    | dec i => exact storing_rel (Release.rel_opAssignVal h Γ s.st (.ar .sub) i (.const tInt 1))
    | input i =>
      rcases Release.rel_inputStep h (Γ i) (s.st i) s.inp with k | k
      · left; simp only [underS, LStmt.exec, ← k]
      · right
        refine ⟨{ s.write i (inputStep (Γ i) (s.st i) s.inp).2.1 with inp := (inputStep (Γ i) (s.st i) s.inp).2.2 }, ?_⟩
        simp only [LStmt.exec, k]
    | output e =>
      have k := Release.rel_output h Γ s.st e
      simp only [underS, LStmt.exec]
      rcases k with k | k
      · rw [k]; exact Or.inl rfl
      · rw [k]; exact Or.inr ⟨s, rfl⟩
    | seq x y =>
      simp only [underS, LStmt.exec]
      rcases ih x s with k | ⟨s1, k⟩
      · rw [← k]
        rcases x.exec Γ f s with _ | ⟨_ | _ | _, s1⟩
        · exact Or.inl rfl
        · exact ih y s1
        · exact Or.inl rfl
        · exact Or.inl rfl
      · rw [k]; exact Or.inr ⟨s1, rfl⟩
    | ite c x y =>
      simp only [underS, LStmt.exec]
      rcases Release.rel_cond h Γ s.st c with k | k
      · rw [← k]
        rcases c.eval Γ s.st with (_ | _) | _ | _
        · exact ih y s
        · exact ih x s
        · exact Or.inl rfl
        · exact Or.inl rfl
      · rw [k]; exact Or.inr ⟨s, rfl⟩
    | «while» c x =>
      have ihw := fun s => ih (.while c x) s
      simp only [underS] at ihw
      simp only [underS, LStmt.exec]
      rcases Release.rel_cond h Γ s.st c with k | k
      · rw [← k]
        rcases c.eval Γ s.st with (_ | _) | _ | _
        · exact Or.inl rfl
        · dsimp only
          rcases ih x s with k | ⟨s1, k⟩
          · rw [← k]
            rcases x.exec Γ f s with _ | ⟨_ | _ | _, s1⟩
            · exact Or.inl rfl
            · exact ihw s1
            · exact Or.inl rfl
            · exact Or.inl rfl
          · rw [k]; exact Or.inr ⟨s1, rfl⟩
        · exact Or.inl rfl
        · exact Or.inl rfl
      · rw [k]; exact Or.inr ⟨s, rfl⟩
    | tryCatch x y =>
      simp only [underS, LStmt.exec]
      rcases ih x s with k | ⟨s1, k⟩
      · rw [← k]
        rcases x.exec Γ f s with _ | ⟨_ | _ | _, s1⟩
        · exact Or.inl rfl
        · exact Or.inl rfl
        · exact ih y _
        · exact Or.inl rfl
      · rw [k]; exact Or.inr ⟨s1, rfl⟩

/-- A program that interval analysis accepts computes what the program over the integers computes with every exception policy: the
handlers are not called, whether they ignore, throw or were written by the user. -/
theorem C97_hulls {N : Names} (hN : Trapping N) (a : N.E → EP)
    (ha : ∀ e, TrapsFor (N.act e) (a e)) {q : N.P} {e : N.E} {n : Nat} {Γ : Fin n → PTy N} (hΓ : OnePolicy q e Γ) (p : LStmt N n)
    (hp : SimpleS q e p) (h : Hulls (N.prom q) Γ p) (f : Nat) (s : LState n) (hs : Ranged Γ s.st) :
    ((underS a p).exec (fun i => underT a (Γ i)) f s = none ∧ iexec f p (abst s) = none) ∨
    (∃ s', (underS a p).exec (fun i => underT a (Γ i)) f s = some (.ret (), s') ∧ iexec f p (abst s) = some (some (abst s')) ∧
      Ranged Γ s'.st ∧ s'.caught = s.caught) := by
  have k := C97_program a ha Γ f p s
  rcases C96_run hN hΓ p hp h f s hs with ⟨h1, h2⟩ | ⟨s', h1, h2⟩
  · rw [h1] at k
    rcases k with k | ⟨_, k⟩
    · exact Or.inl ⟨k.symm, h2⟩
    · cases k
  · rw [h1] at k
    rcases k with k | ⟨_, k⟩
    · exact Or.inr ⟨s', k.symm, h2⟩
    · cases k

end

/-! ### the hypotheses can be met -/
section
attribute [local instance] lp64

example : TrapsFor looseTrap looseException := by
  intro e; cases e <;> first | exact Or.inl rfl | exact Or.inr rfl
-- the other way round it does not hold
example : ¬ TrapsFor looseException looseTrap := fun h => by have := h .domain_error; revert this; decide

/- both possibilities occur: the sum of two numbers of 0..100 in an `int`, and of two `int`s -/
example : arith .native looseTrap .add (Opd.range i32 0 100) (Opd.range i32 0 100) 70 80 = .ret 150 ∧
    arith .native ⟨.ignore, .ignore, .ignore, .ignore⟩ .add (Opd.range i32 0 100) (Opd.range i32 0 100) 70 80 = .ret 150 ∧
    arith .native looseTrap .add (Opd.ofSafe i32) (Opd.ofSafe i32) 70 80 = .fault .illFormed ∧
    arith .native looseException .add (Opd.ofSafe i32) (Opd.ofSafe i32) 70 80 = .ret 150 := by decide +kernel

/- the program of C96 with a policy that ignores all errors -/
example (f : Nat) (s : LState 3) (hs : Ranged Analysis.Γ s.st) :=
  C97_hulls (N := Analysis.names) ⟨fun _ => rfl, fun _ => trivial⟩ (fun _ => ⟨.ignore, .ignore, .ignore, .ignore⟩) (fun _ => C97_strictest _) Analysis.one
    Analysis.prog Analysis.simple Analysis.hulls f s hs

end
end Verif.Props
