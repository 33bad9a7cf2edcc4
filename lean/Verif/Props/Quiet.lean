import Verif.Proofs.Quiet
import Verif.Props.Lang

/-!
Property C66: no false alarms. A program whose values all fit their types runs without an exception.
-/

namespace Verif.Spec

/-- an input stream that has not failed; at the end only when nothing is left -/
def StreamOk (s : IStream) : Prop := s.fail = false ∧ (s.eof = true → s.buf = [])

section
variable [Arch]

/-- the run is rejected by the compiler, or does what the integer program does and no exception is thrown on the way -/
def RunsQuietly {N : Names} (Γ : Fin n → PTy N) (f : Nat) (p : LStmt N n) (s : LState n) : Prop :=
  (p.exec Γ f s = none ∧ iexec f p (abst s) = none) ∨
  (∃ s', p.exec Γ f s = some (.ret (), s') ∧ iexec f p (abst s) = some (some (abst s')) ∧ s'.caught = s.caught ∧
    Ranged Γ s'.st ∧ StreamOk s'.inp) ∨
  (∃ s', p.exec Γ f s = some (.fault .illFormed, s'))

end
end Verif.Spec

namespace Verif.Props
open Spec Lang

section
variable [Arch]

/-- One operator of the library, any promotion policy, exception policies that throw or trap: if both operands and the result
over the integers are representable in the type chosen by the promotion policy (shifts: also the count is in order; products
that are zero for all values of the operand types: always), the operator returns that result, unless the compiler rejects
it. -/
theorem C66_operator_partial (pp : PP) (hpp : pp.Wf) (p : EP) (hp : p.ae = .throw ∨ p.ae = .trap) (o : Op2) (T U : Opd)
    (hT : T.Wf) (hU : U.Wf) (hc : OpCovered pp p T U o) (t u : Int) (ht : T.Has t) (hu : U.Has u)
    (hf : ∀ R, pp.result (opName o) T U = .ret R → TyFits R o T U t u) :
    (∃ v, o.safeVal pp p T U t u = .ret v ∧ imath o t u = some v) ∨ o.safeVal pp p T U t u = .fault .illFormed := by
  have q := op_quiet hpp hp hT hU hc ht hu hf
  rcases hp with hp | hp
  · rcases op_throw hpp hp hT hU hc ht hu with ⟨S, v, _, _, _, h, _, h'⟩ | ⟨e, h⟩ | h
    · exact Or.inl ⟨v, h, h'⟩
    · exact absurd h (q e)
    · exact Or.inr h
  · rcases op_trap hpp hp hT hU hc with h | ⟨S, _, _, _, h⟩
    · exact Or.inr (h t u ht hu)
    · obtain ⟨v, h1, _, h2⟩ := h t u ht hu
      exact Or.inl ⟨v, h1, h2⟩

/-- Expressions: if every operation fits, the expression has the value it has over the integers. -/
theorem C66_expr_partial {N : Names} (hN : Careful N) {n : Nat} (Γ : Fin n → PTy N) (hΓ : GoodVars Γ) (s : Fin n → Int)
    (hs : Ranged Γ s) (e : LExpr N n) (he : ECovered Γ e) (hf : EFits Γ s e) :
    (∃ v, e.eval Γ s = .ret v ∧ ival s e = some v) ∨ e.eval Γ s = .fault .illFormed := by
  rcases eval_good hN hΓ hs e he with ⟨_, v, _, _, h, _, h'⟩ | ⟨x, h⟩ | h
  · exact Or.inl ⟨v, h, h'⟩
  · exact absurd h (eval_quiet hN hΓ hs e he hf x)
  · exact Or.inr h

/-- Conditions: if every operation fits and both sides of every comparison that is made fit the type in which they are compared,
the condition is what it is over the integers. -/
theorem C66_cond_partial {N : Names} (hN : Careful N) {n : Nat} (Γ : Fin n → PTy N) (hΓ : GoodVars Γ) (s : Fin n → Int)
    (hs : Ranged Γ s) (c : LCond N n) (hc : CCovered Γ c) (hf : CFits Γ s c) :
    (∃ b, c.eval Γ s = .ret b ∧ icond s c = some b) ∨ c.eval Γ s = .fault .illFormed := by
  rcases cond_good hN hΓ hs c hc with ⟨b, h, h'⟩ | ⟨x, h⟩ | h
  · exact Or.inl ⟨b, h, h'⟩
  · exact absurd h (cond_quiet hN hΓ hs c hc hf x)
  · exact Or.inr h

private theorem storing_quiet {N : Names} {n : Nat} {Γ : Fin n → PTy N} {s : LState n} {i : Fin n} {r : Out Int}
    {io : Option (IState n)} (hs : Ranged Γ s.st) (hi : StreamOk s.inp) (q : Quiet r)
    (h : (∃ v, r = .ret v ∧ (Γ i).opd.Has v ∧ io = some ((abst s).write i v)) ∨ (∃ e, r = .thrown e) ∨ r = .fault .illFormed) :
    (∃ s', some (storing s i r) = some (.ret (), s') ∧ some io = some (some (abst s')) ∧ s'.caught = s.caught ∧
      Ranged Γ s'.st ∧ StreamOk s'.inp) ∨ (∃ s', some (storing s i r) = some (.fault .illFormed, s')) := by
  rcases h with ⟨v, rfl, h1, rfl⟩ | ⟨e, h⟩ | rfl
  · exact Or.inl ⟨s.write i v, rfl, rfl, rfl, ranged_write hs h1, hi⟩
  · exact absurd h (q e)
  · exact Or.inr ⟨s, rfl⟩

/-- Whole programs: if everything the program computes over the integers fits (operations the types in which they are carried out,
values the variables they are stored in, numbers read the variables they are read into), the program runs exactly like the
integer program: it ends if and only if that ends, in the same state with the same output, and no exception is thrown on the
way. -/
theorem C66_program_partial {N : Names} (hN : Careful N) {n : Nat} (Γ : Fin n → PTy N) (hΓ : GoodVars Γ) :
    ∀ (f : Nat) (p : LStmt N n) (s : LState n), SCovered Γ p → Ranged Γ s.st → StreamOk s.inp → SFits Γ f p (abst s) →
      RunsQuietly Γ f p s
  | 0, p, s, _, _, _, _ => by left; cases p <;> exact ⟨rfl, rfl⟩
  | f + 1, .skip, s, _, hs, hi, _ => Or.inr (Or.inl ⟨s, rfl, rfl, rfl, hs, hi⟩)
  | f + 1, .assign i e, s, hc, hs, hi, hf => by
    refine Or.inr (storing_quiet hs hi (assign_quiet hN hΓ hs hc.1 hc.2 hf.1 hf.2) ?_)
    rcases assign_good hN hΓ hs (i := i) hc.1 hc.2 with ⟨v, h1, h2, h3⟩ | h | h
    · refine Or.inl ⟨v, h1, h2, ?_⟩
      show (ival s.st e).map _ = _
      rw [h3]; rfl
    · exact Or.inr (Or.inl h)
    · exact Or.inr (Or.inr h)
  | f + 1, .opAssign op i e, s, hc, hs, hi, hf => by
    refine Or.inr (storing_quiet hs hi (opAssign_quiet hN hΓ hs hc hf.1 hf.2) ?_)
    rcases opAssign_good hN hΓ hs (i := i) hc with ⟨v, h1, h2, h3⟩ | h | h
    · refine Or.inl ⟨v, h1, h2, ?_⟩
      rcases hv : ival s.st e with _ | w
      · rw [hv] at h3; cases h3
      · rw [hv] at h3
        have h3 : imath op (s.st i) w = some v := h3
        show (ival s.st e).bind (fun w => (imath op (s.st i) w).bind fun v => some ((abst s).write i v)) = _
        rw [hv]
        show (imath op (s.st i) w).bind _ = _
        rw [h3]; rfl
    · exact Or.inr (Or.inl h)
    · exact Or.inr (Or.inr h)
  | f + 1, .inc i, s, hc, hs, hi, hf => by
    refine Or.inr (storing_quiet hs hi (opAssign_quiet hN hΓ hs (inc_covered hc (Or.inl rfl)) trivial ?_) ?_)
    · intro U u h1 h2
      cases h1; cases h2
      exact ⟨hf.1, fun v h => by cases h; exact hf.2⟩
    rcases opAssign_good hN hΓ hs (i := i) (inc_covered hc (Or.inl rfl)) with ⟨v, h1, h2, h3⟩ | h | h
    · refine Or.inl ⟨v, h1, h2, ?_⟩
      have h3 : some (s.st i + 1) = some v := h3
      cases h3; rfl
    · exact Or.inr (Or.inl h)
    · exact Or.inr (Or.inr h)
  | f + 1, .dec i, s, hc, hs, hi, hf => by
    refine Or.inr (storing_quiet hs hi (opAssign_quiet hN hΓ hs (inc_covered hc (Or.inr rfl)) trivial ?_) ?_)
    · intro U u h1 h2
      cases h1; cases h2
      exact ⟨hf.1, fun v h => by cases h; exact hf.2⟩
    rcases opAssign_good hN hΓ hs (i := i) (inc_covered hc (Or.inr rfl)) with ⟨v, h1, h2, h3⟩ | h | h
    · refine Or.inl ⟨v, h1, h2, ?_⟩
      have h3 : some (s.st i - 1) = some v := h3
      cases h3; rfl
    · exact Or.inr (Or.inl h)
    · exact Or.inr (Or.inr h)
  | f + 1, .input i, s, hc, hs, hi, hf => by
    obtain ⟨c1, c2, c3, c4⟩ := hc
    have hk := isSafe_kind c1
    have hsafe : (Γ i).opd.kind = .safe := (hΓ i).2.resolve_left hk
    have hT := (hΓ i).1.1
    have e : inputStep (Γ i) (s.st i) s.inp = Verif.input (Γ i).ep (Γ i).opd (s.st i) s.inp := by
      unfold inputStep; rw [c1, if_pos rfl]
    obtain ⟨neg, k, rest, n1, n2, n3⟩ := hf
    have n1 : NumberAt s.inp.buf neg k rest := n1
    have hne : s.inp.buf ≠ [] := by
      intro h
      obtain ⟨ws, sg, ds, h', _, hd, _⟩ := n1
      rw [h] at h'
      simp [hd] at h'
    have he : s.inp.eof = false := by
      cases h : s.inp.eof
      · rfl
      · exact absurd (hi.2 h) hne
    right
    simp only [LStmt.exec, e]
    rcases ep_careful hN ((hΓ i).1.2.2.1 hsafe).2 with hp | hp
    · rcases C37_accepts (Γ i).ep hp (Γ i).opd hT (s.st i) s.inp he hi.1 neg k rest n1 n2
        (fun h _ => by cases neg; rfl; rw [n3 rfl] at h; cases h) with h | h
      · left
        refine ⟨{ s.write i k with inp := ⟨rest, rest.isEmpty, false⟩ }, by rw [h], ?_, rfl, ranged_write hs n2, rfl, ?_⟩
        · show some ((iread s.inp.buf).map _) = _
          rw [iread_number n1]; rfl
        · intro h; exact List.isEmpty_iff.mp h
      · exact Or.inr ⟨_, by rw [h]⟩
    · right
      unfold input
      rw [inputStatic_trap hp hT]
      exact ⟨_, rfl⟩
  | f + 1, .output e, s, hc, hs, hi, hf => by
    right
    simp only [LStmt.exec]
    rcases ty_st Γ e with ⟨A, ea⟩ | ea
    · rw [ea, ret_bind]
      rcases eval_good hN hΓ hs e hc.1 with ⟨A', x, ea', wA, vx, hx, mx⟩ | ⟨x, ex⟩ | ex
      · rw [ea] at ea'; obtain rfl := Out.ret.inj ea'
        rw [vx, ret_bind]
        have : outputStep A x = .ret (printInt x) := output_good wA (hc.2 A ea) hx
        rw [this]
        refine Or.inl ⟨_, rfl, ?_, rfl, hs, hi⟩
        show some ((ival s.st e).map _) = _
        rw [mx]; rfl
      · exact absurd ex (eval_quiet hN hΓ hs e hc.1 hf x)
      · rw [ex]; exact Or.inr ⟨_, rfl⟩
    · rw [ea]; exact Or.inr ⟨_, rfl⟩
  | f + 1, .seq a b, s, hc, hs, hi, hf => by
    unfold RunsQuietly
    simp only [LStmt.exec, iexec]
    rcases C66_program_partial hN Γ hΓ f a s hc.1 hs hi hf.1 with ⟨h1, h2⟩ | ⟨s1, h1, h2, h3, h4, h5⟩ | ⟨s1, h1⟩
    · rw [h1, h2]; exact Or.inl ⟨rfl, rfl⟩
    · rw [h1, h2]
      rcases C66_program_partial hN Γ hΓ f b s1 hc.2 h4 h5 (hf.2 _ h2) with h | ⟨s2, g1, g2, g3, g4⟩ | h
      · exact Or.inl h
      · exact Or.inr (Or.inl ⟨s2, g1, g2, by rw [g3, h3], g4⟩)
      · exact Or.inr (Or.inr h)
    · rw [h1]; exact Or.inr (Or.inr ⟨_, rfl⟩)
  | f + 1, .ite c a b, s, hc, hs, hi, hf => by
    unfold RunsQuietly
    simp only [LStmt.exec, iexec]
    rcases C66_cond_partial hN Γ hΓ s.st hs c hc.1 hf.1 with ⟨x, h1, h2⟩ | h1
    · rw [h1, show (abst s).st = s.st from rfl, h2]
      cases x
      · exact C66_program_partial hN Γ hΓ f b s hc.2.2 hs hi (hf.2.2 h2)
      · exact C66_program_partial hN Γ hΓ f a s hc.2.1 hs hi (hf.2.1 h2)
    · rw [h1]; exact Or.inr (Or.inr ⟨_, rfl⟩)
  | f + 1, .while c a, s, hc, hs, hi, hf => by
    unfold RunsQuietly
    simp only [LStmt.exec, iexec]
    rcases C66_cond_partial hN Γ hΓ s.st hs c hc.1 hf.1 with ⟨x, h1, h2⟩ | h1
    · rw [h1, show (abst s).st = s.st from rfl, h2]
      cases x
      · exact Or.inr (Or.inl ⟨s, rfl, rfl, rfl, hs, hi⟩)
      · dsimp only
        obtain ⟨f1, f2⟩ := hf.2 h2
        rcases C66_program_partial hN Γ hΓ f a s hc.2 hs hi f1 with ⟨h1, h2⟩ | ⟨s1, h1, h2, h3, h4, h5⟩ | ⟨s1, h1⟩
        · rw [h1, h2]; exact Or.inl ⟨rfl, rfl⟩
        · rw [h1, h2]
          rcases C66_program_partial hN Γ hΓ f (.while c a) s1 hc h4 h5 (f2 _ h2) with h | ⟨s2, g1, g2, g3, g4⟩ | h
          · exact Or.inl h
          · exact Or.inr (Or.inl ⟨s2, g1, g2, by rw [g3, h3], g4⟩)
          · exact Or.inr (Or.inr h)
        · rw [h1]; exact Or.inr (Or.inr ⟨_, rfl⟩)
    · rw [h1]; exact Or.inr (Or.inr ⟨_, rfl⟩)
  | f + 1, .tryCatch a b, s, hc, hs, hi, hf => by
    unfold RunsQuietly
    simp only [LStmt.exec, iexec]
    rcases C66_program_partial hN Γ hΓ f a s hc.1 hs hi hf with ⟨h1, h2⟩ | ⟨s1, h1, h2, h3, h4, h5⟩ | ⟨s1, h1⟩
    · rw [h1, h2]; exact Or.inl ⟨rfl, rfl⟩
    · rw [h1, h2]; exact Or.inr (Or.inl ⟨s1, rfl, rfl, h3, h4, h5⟩)
    · rw [h1]; exact Or.inr (Or.inr ⟨_, rfl⟩)

end

/-! ### a program meeting the hypotheses: Euclid's algorithm -/

namespace Euclid
attribute [local instance] lp64

def names : Names := ⟨Unit, Unit, inferInstance, inferInstance, fun _ => .native, fun _ => looseException⟩

theorem careful : Careful names := ⟨fun _ => Or.inl rfl, fun _ => trivial⟩

/-- `safe<unsigned>` -/
abbrev w : PTy names := ⟨Opd.ofSafe u32, some (), some ()⟩

/-- three variables -/
def Γ : Fin 3 → PTy names := fun _ => w

theorem w_wf : PTy.Wf w := ⟨by decide +kernel, nofun, fun _ => ⟨nofun, nofun⟩, nofun⟩

theorem good : GoodVars Γ := fun _ => ⟨w_wf, Or.inr rfl⟩

/-- `r = a % b; a = b; b = r;` -/
def step : LStmt names 3 :=
  .seq (.assign 2 (.bin (.ar .mod) (.var 0) (.var 1))) (.seq (.assign 0 (.var 1)) (.assign 1 (.var 2)))

/-- `while (b != 0) { r = a % b; a = b; b = r; }` -/
def gcd : LStmt names 3 := .while (.cmp .ne (.var 1) (.const i32 0)) step

theorem mod_result : PP.result .native .mod (Opd.ofSafe u32) (Opd.ofSafe u32) = .ret u32 := by decide +kernel

theorem has_iff (x : Int) : (Opd.ofSafe u32).Has x ↔ 0 ≤ x ∧ x ≤ 4294967295 := Iff.rfl

theorem in_iff (x : Int) : u32.In x ↔ 0 ≤ x ∧ x ≤ 4294967295 := Iff.rfl

theorem tmod_bound {t u : Int} (ht : (Opd.ofSafe u32).Has t) (hu : (Opd.ofSafe u32).Has u) :
    0 ≤ t.tmod u ∧ t.tmod u ≤ 4294967295 := by
  rw [has_iff] at ht hu
  have e : t.tmod u = t % u := Int.tmod_eq_emod_of_nonneg ht.1
  rcases Decidable.em (u = 0) with rfl | h
  · rw [Int.tmod_zero]; exact ht
  · have := Int.emod_nonneg t h
    have := Int.emod_lt_of_pos t (show 0 < u by omega)
    omega

theorem mod_covered : OpCovered .native looseException (Opd.ofSafe u32) (Opd.ofSafe u32) (.ar .mod) := by
  have e' : arithTy .native .mod (Opd.ofSafe u32) (Opd.ofSafe u32) = .ret (Opd.ofSafe u32) := by decide +kernel
  refine ⟨fun R h => ?_, fun S h => ?_⟩
  · rw [mod_result] at h; cases h
    exact ⟨⟨by decide +kernel, by decide +kernel⟩, nofun⟩
  · rw [e'] at h; cases h
    exact ⟨by decide +kernel, fun t u ht hu _ => tmod_bound ht hu⟩

theorem covered : SCovered Γ gcd := by
  refine ⟨⟨trivial, ⟨by decide +kernel, by decide +kernel⟩, fun T U h _ => ?_⟩, ⟨⟨trivial, trivial, fun T U h1 h2 => ?_⟩,
    fun T h => ?_⟩, ⟨trivial, fun T h => ?_⟩, trivial, fun T h => ?_⟩
  · cases h; exact Or.inl (Or.inl rfl)
  · cases h1; cases h2; exact ⟨Or.inl rfl, fun _ _ _ _ => mod_covered⟩
  · exact ⟨w_wf, Or.inr rfl, Or.inl rfl⟩
  · exact ⟨w_wf, Or.inr rfl, Or.inl rfl⟩
  · exact ⟨w_wf, Or.inr rfl, Or.inl rfl⟩

theorem cond (s : IState 3) : icond s.st (.cmp .ne (.var 1) (.const i32 0) : LCond names 3) = some (decide (s.st 1 ≠ 0)) := rfl

/-- one round over the integers -/
theorem istep (f : Nat) (s : IState 3) (h : s.st 1 ≠ 0) : iexec (f + 3) step s =
    some (some (((s.write 2 ((s.st 0).tmod (s.st 1))).write 0 (s.st 1)).write 1 ((s.st 0).tmod (s.st 1)))) := by
  simp [step, iexec, ival, imath, h, IState.write]

/-- everything fits, from every state within the range and for any number of steps -/
theorem fits : ∀ (f : Nat) (s : IState 3), (∀ i, (Opd.ofSafe u32).Has (s.st i)) → SFits Γ f gcd s
  | 0, _, _ => trivial
  | f + 1, s, hs => by
    refine ⟨⟨trivial, trivial, fun T U t u q R h1 h2 h3 h4 _ h6 => ?_⟩, fun hc => ?_⟩
    · cases h1; cases h2; cases h3; cases h4
      have e1 : PP.result .native .cmp (Opd.ofSafe u32) (Opd.ofBuiltin i32) = .ret u32 := by decide +kernel
      obtain rfl : u32 = R := Out.ret.inj (e1.symm.trans h6)
      exact Or.inl ⟨hs 1, by decide +kernel⟩
    · rw [cond] at hc
      have h0 : s.st 1 ≠ 0 := by simpa using hc
      have hm := tmod_bound (hs 0) (hs 1)
      have hb : BinFits (.ar .mod) w w (s.st 0) (s.st 1) := by
        intro q R _ h
        have h : PP.result .native .mod (Opd.ofSafe u32) (Opd.ofSafe u32) = .ret R := h
        rw [mod_result] at h; cases h
        exact Or.inl ⟨hs 0, hs 1, ⟨(s.st 0).tmod (s.st 1), by simp [imath, h0], hm⟩, nofun, nofun⟩
      match f with
      | 0 => exact ⟨trivial, fun _ h => by cases h⟩
      | 1 => exact ⟨⟨trivial, fun _ h => by cases h⟩, fun _ h => by cases h⟩
      | 2 =>
        refine ⟨⟨⟨⟨trivial, trivial, fun T U t u h1 h2 h3 h4 => ?_⟩, fun v h => ?_⟩, fun s' _ => ⟨trivial, fun _ h => by cases h⟩⟩,
          fun s' h => ?_⟩
        · cases h1; cases h2; cases h3; cases h4; exact hb
        · simp [ival, imath, h0] at h; subst h; exact hm
        · exfalso
          revert h
          simp [step, iexec, ival, imath, h0]
      | g + 3 =>
        refine ⟨⟨⟨⟨trivial, trivial, fun T U t u h1 h2 h3 h4 => ?_⟩, fun v h => ?_⟩, fun s' h => ⟨⟨trivial, fun v h' => ?_⟩,
          fun s'' h'' => ⟨trivial, fun v h' => ?_⟩⟩⟩, fun s' h => ?_⟩
        · cases h1; cases h2; cases h3; cases h4; exact hb
        · simp [ival, imath, h0] at h; subst h; exact hm
        · simp [iexec, ival, imath, h0] at h; subst h
          simp [ival, IState.write] at h'; subst h'; exact hs 1
        · simp [iexec, ival, imath, h0] at h; subst h
          simp [iexec, ival, IState.write] at h''; subst h''
          simp [ival] at h'; subst h'; exact hm
        · rw [istep g s h0] at h
          cases h
          refine fits (g + 3) _ fun i => ?_
          simp only [IState.write]
          split_ifs
          · exact hm
          · exact hs 1
          · exact hm
          · exact hs i

example (f : Nat) (s : LState 3) (hs : Ranged Γ s.st) (hi : StreamOk s.inp) : RunsQuietly Γ f gcd s :=
  C66_program_partial careful Γ good f gcd s covered hs hi (fits f (abst s) hs)

example : (gcd.exec Γ 20 ⟨fun i => if i = 0 then 2310 else 546, ⟨[], false, false⟩, [], 0⟩).map (fun r => (r.1, r.2.st 0)) =
    some (.ret (), 42) := by decide +kernel

end Euclid

-- the fits are needed: one more than the maximum does not fit
section
attribute [local instance] lp64
example : ¬ OpFits i32 (.ar .add) 2147483647 1 := by
  rintro ⟨_, _, ⟨v, h, hv⟩, _⟩
  cases h
  exact absurd hv (by decide +kernel)
example : OpFits i32 (.ar .add) 2147483647 (-1) := ⟨by decide +kernel, by decide +kernel, ⟨_, rfl, by decide +kernel⟩, nofun, nofun⟩
end
end Verif.Props
