import Verif.Proofs.Fits
import Verif.Props.Quiet

/-!
Property C71: exceptions are thrown exactly when a value does not fit (the converse of C66, and both together).
-/

namespace Verif.Props
open Spec Lang

section
variable [Arch]

/-- One operator of the library, any promotion policy, exception policies that throw or trap. If the compiler accepts it, it
throws an exception exactly when an operand or the result over the integers is not representable in the type chosen by the
promotion policy or the result is undefined (for shifts also: the count is not in order); products that are zero for all
values of the operand types never throw. -/
theorem C71_operator_partial (pp : PP) (hpp : pp.Wf) (p : EP) (hp : p.ae = .throw ∨ p.ae = .trap) (o : Op2) (T U : Opd)
    (hT : T.Wf) (hU : U.Wf) (hc : OpCovered pp p T U o) (t u : Int) (ht : T.Has t) (hu : U.Has u)
    (ha : o.safeVal pp p T U t u ≠ .fault .illFormed) :
    (∃ e, o.safeVal pp p T U t u = .thrown e) ↔ ∃ R, pp.result (opName o) T U = .ret R ∧ ¬ TyFits R o T U t u := by
  constructor
  · rintro ⟨e, he⟩
    by_contra hn
    push Not at hn
    rcases C66_operator_partial pp hpp p hp o T U hT hU hc t u ht hu hn with ⟨v, h, _⟩ | h <;> rw [he] at h <;> cases h
  · rintro ⟨R, hR, hn⟩
    rcases hx : o.safeVal pp p T U t u with v | e | k
    · exact absurd (op_fits hpp hp hT hU hc ht hu hx hR) hn
    · exact ⟨e, rfl⟩
    · exfalso
      rcases hp with hp | hp
      · rcases op_throw hpp hp hT hU hc ht hu with ⟨_, _, _, _, _, h, _⟩ | ⟨e, h⟩ | h
        · rw [hx] at h; cases h
        · rw [hx] at h; cases h
        · exact ha h
      · rcases op_trap hpp hp hT hU hc with h | ⟨S, _, _, _, h⟩
        · exact ha (h t u ht hu)
        · obtain ⟨v, h, _⟩ := h t u ht hu
          rw [hx] at h; cases h

/-- Expressions: an accepted covered expression throws exactly when one of its operations does not fit. -/
theorem C71_expr_partial {N : Names} (hN : Careful N) {n : Nat} (Γ : Fin n → PTy N) (hΓ : GoodVars Γ) (s : Fin n → Int)
    (hs : Ranged Γ s) (e : LExpr N n) (he : ECovered Γ e) (ha : e.eval Γ s ≠ .fault .illFormed) :
    ((∃ x, e.eval Γ s = .thrown x) ↔ ¬ EFits Γ s e) ∧ ((∃ v, e.eval Γ s = .ret v) ↔ EFits Γ s e) := by
  have key : (∃ v, e.eval Γ s = .ret v) ↔ EFits Γ s e :=
    ⟨fun ⟨_, h⟩ => eval_fits hN hΓ hs e he h, fun h =>
      (C66_expr_partial hN Γ hΓ s hs e he h).elim (fun ⟨v, h, _⟩ => ⟨v, h⟩) (fun h => absurd h ha)⟩
  refine ⟨⟨fun ⟨x, h⟩ hf => ?_, fun hf => ?_⟩, key⟩
  · obtain ⟨v, h'⟩ := key.2 hf
    rw [h] at h'; cases h'
  · rcases eval_good hN hΓ hs e he with ⟨_, v, _, _, h, _⟩ | h | h
    · exact absurd (key.1 ⟨v, h⟩) hf
    · exact h
    · exact absurd h ha

/-- Conditions: an accepted covered condition throws exactly when one of the operations or comparisons that are carried out does
not fit (`&&` and `||` evaluate their right operand only if needed). -/
theorem C71_cond_partial {N : Names} (hN : Careful N) {n : Nat} (Γ : Fin n → PTy N) (hΓ : GoodVars Γ) (s : Fin n → Int)
    (hs : Ranged Γ s) (c : LCond N n) (hc : CCovered Γ c) (ha : c.eval Γ s ≠ .fault .illFormed) :
    ((∃ x, c.eval Γ s = .thrown x) ↔ ¬ CFits Γ s c) ∧ ((∃ b, c.eval Γ s = .ret b) ↔ CFits Γ s c) := by
  have key : (∃ v, c.eval Γ s = .ret v) ↔ CFits Γ s c :=
    ⟨fun ⟨_, h⟩ => cond_fits hN hΓ hs c hc h, fun h =>
      (C66_cond_partial hN Γ hΓ s hs c hc h).elim (fun ⟨v, h, _⟩ => ⟨v, h⟩) (fun h => absurd h ha)⟩
  refine ⟨⟨fun ⟨x, h⟩ hf => ?_, fun hf => ?_⟩, key⟩
  · obtain ⟨v, h'⟩ := key.2 hf
    rw [h] at h'; cases h'
  · rcases cond_good hN hΓ hs c hc with ⟨v, h, _⟩ | h | h
    · exact absurd (key.1 ⟨v, h⟩) hf
    · exact h
    · exact absurd h ha

private theorem storing_ret {n : Nat} {s s' : LState n} {i : Fin n} {r : Out Int} (h : storing s i r = (.ret (), s')) :
    ∃ v, r = .ret v := by
  rcases r with v | e | k
  · exact ⟨v, rfl⟩
  · cases h
  · cases h

/-- Whole programs, the converse of C66: if an execution ends without an exception (thrown, or caught on the way), then
everything the program computes over the integers fits. -/
theorem C71_fits_partial {N : Names} (hN : Careful N) {n : Nat} (Γ : Fin n → PTy N) (hΓ : GoodVars Γ) :
    ∀ (f : Nat) (p : LStmt N n) (s s' : LState n), SCovered Γ p → Ranged Γ s.st → p.exec Γ f s = some (.ret (), s') →
      s'.caught = s.caught → SFits Γ f p (abst s)
  | 0, _, _, _, _, _, _, _ => trivial
  | f + 1, .skip, _, _, _, _, _, _ => trivial
  | f + 1, .assign i e, s, s', hc, hs, h, _ => by
    simp only [LStmt.exec, Option.some.injEq] at h
    obtain ⟨v, hv⟩ := storing_ret h
    exact assign_fits hN hΓ hs hc.1 hc.2 hv
  | f + 1, .opAssign o i e, s, s', hc, hs, h, _ => by
    simp only [LStmt.exec, Option.some.injEq] at h
    obtain ⟨v, hv⟩ := storing_ret h
    exact opAssign_fits hN hΓ hs hc hv
  | f + 1, .inc i, s, s', hc, hs, h, _ => by
    simp only [LStmt.exec, Option.some.injEq] at h
    obtain ⟨v, hv⟩ := storing_ret h
    obtain ⟨h1, h2⟩ := (opAssign_fits hN hΓ hs (inc_covered hc (Or.inl rfl)) hv).2 _ 1 rfl rfl
    exact ⟨h1, h2 _ rfl⟩
  | f + 1, .dec i, s, s', hc, hs, h, _ => by
    simp only [LStmt.exec, Option.some.injEq] at h
    obtain ⟨v, hv⟩ := storing_ret h
    obtain ⟨h1, h2⟩ := (opAssign_fits hN hΓ hs (inc_covered hc (Or.inr rfl)) hv).2 _ 1 rfl rfl
    exact ⟨h1, h2 _ rfl⟩
  | f + 1, .input i, s, s', hc, hs, h, _ => by
    obtain ⟨c1, c2, c3, c4⟩ := hc
    have hsafe : (Γ i).opd.kind = .safe := (hΓ i).2.resolve_left (isSafe_kind c1)
    have hT := (hΓ i).1.1
    have e : inputStep (Γ i) (s.st i) s.inp = Verif.input (Γ i).ep (Γ i).opd (s.st i) s.inp := by
      unfold inputStep; rw [c1, if_pos rfl]
    simp only [LStmt.exec, Option.some.injEq, e] at h
    have h1 : (Verif.input (Γ i).ep (Γ i).opd (s.st i) s.inp).1 = .ret () := congrArg Prod.fst h
    rcases ep_careful hN ((hΓ i).1.2.2.1 hsafe).2 with hp | hp
    · obtain ⟨neg, k, rest, h2, h3, _, h4⟩ := C37_reads_partial _ hp _ hT c2 _ _ h1
      refine ⟨neg, k, rest, h2, h3, fun hn => ?_⟩
      cases hg : (Γ i).opd.base.signed
      · rw [h4 hg] at hn; cases hn
      · rfl
    · unfold Verif.input at h1
      rw [inputStatic_trap hp hT] at h1
      cases h1
  | f + 1, .output e, s, s', hc, hs, h, _ => by
    simp only [LStmt.exec] at h
    rcases ty_st Γ e with ⟨A, ea⟩ | ea <;> rw [ea] at h
    · rcases hv : e.eval Γ s.st with v | x | k
      · exact eval_fits hN hΓ hs e hc.1 hv
      · rw [hv] at h; cases h
      · rw [hv] at h; cases h
    · cases h
  | f + 1, .seq a b, s, s', hc, hs, h, hk => by
    simp only [LStmt.exec] at h
    rcases ha : a.exec Γ f s with _ | ⟨o1, s1⟩ <;> rw [ha] at h
    · cases h
    · obtain ⟨k1, k2, k3, k4⟩ := exec_fine hN hΓ f a s o1 s1 hc.1 hs ha
      rcases k1 with rfl | ⟨x, rfl⟩ | rfl
      · have h : b.exec Γ f s1 = some (.ret (), s') := h
        obtain ⟨_, _, g3, _⟩ := exec_fine hN hΓ f b s1 _ s' hc.2 k2 h
        have e1 : s1.caught = s.caught := by omega
        refine ⟨C71_fits_partial hN Γ hΓ f a s s1 hc.1 hs ha e1, fun s2 h2 => ?_⟩
        rw [k4 rfl e1] at h2
        cases h2
        exact C71_fits_partial hN Γ hΓ f b s1 s' hc.2 k2 h (by omega)
      · cases h
      · cases h
  | f + 1, .ite c a b, s, s', hc, hs, h, hk => by
    simp only [LStmt.exec] at h
    rcases cond_good hN hΓ hs c hc.1 with ⟨x, h1, h2⟩ | ⟨x, h1⟩ | h1 <;> rw [h1] at h
    · refine ⟨cond_fits hN hΓ hs c hc.1 h1, fun h3 => ?_, fun h3 => ?_⟩ <;> rw [show (abst s).st = s.st from rfl, h2] at h3 <;>
        cases h3
      · exact C71_fits_partial hN Γ hΓ f a s s' hc.2.1 hs h hk
      · exact C71_fits_partial hN Γ hΓ f b s s' hc.2.2 hs h hk
    · cases h
    · cases h
  | f + 1, .while c a, s, s', hc, hs, h, hk => by
    simp only [LStmt.exec] at h
    rcases cond_good hN hΓ hs c hc.1 with ⟨x, h1, h2⟩ | ⟨x, h1⟩ | h1 <;> rw [h1] at h
    · refine ⟨cond_fits hN hΓ hs c hc.1 h1, fun h3 => ?_⟩
      rw [show (abst s).st = s.st from rfl, h2] at h3
      cases h3
      dsimp only at h
      rcases ha : a.exec Γ f s with _ | ⟨o1, s1⟩ <;> rw [ha] at h
      · cases h
      · obtain ⟨k1, k2, k3, k4⟩ := exec_fine hN hΓ f a s o1 s1 hc.2 hs ha
        rcases k1 with rfl | ⟨x, rfl⟩ | rfl
        · have h : LStmt.exec Γ f (.while c a) s1 = some (.ret (), s') := h
          obtain ⟨_, _, g3, _⟩ := exec_fine hN hΓ f (.while c a) s1 _ s' hc k2 h
          have e1 : s1.caught = s.caught := by omega
          refine ⟨C71_fits_partial hN Γ hΓ f a s s1 hc.2 hs ha e1, fun s2 h2 => ?_⟩
          rw [k4 rfl e1] at h2
          cases h2
          exact C71_fits_partial hN Γ hΓ f (.while c a) s1 s' hc k2 h (by omega)
        · cases h
        · cases h
    · cases h
    · cases h
  | f + 1, .tryCatch a b, s, s', hc, hs, h, hk => by
    simp only [LStmt.exec] at h
    rcases ha : a.exec Γ f s with _ | ⟨o1, s1⟩ <;> rw [ha] at h
    · cases h
    · obtain ⟨k1, k2, k3, k4⟩ := exec_fine hN hΓ f a s o1 s1 hc.1 hs ha
      rcases k1 with rfl | ⟨x, rfl⟩ | rfl
      · cases h
        exact C71_fits_partial hN Γ hΓ f a s _ hc.1 hs ha hk
      · have h : b.exec Γ f { s1 with caught := s1.caught + 1 } = some (.ret (), s') := h
        obtain ⟨_, _, g3, _⟩ := exec_fine hN hΓ f b { s1 with caught := s1.caught + 1 } _ s' hc.2 k2 h
        have g3 : s1.caught + 1 ≤ s'.caught := g3
        omega
      · cases h

/-- Whole programs, both directions: a finished execution of an accepted covered program, started with a good input stream,
threw no exception (uncaught or caught) if and only if everything the program computes over the integers fits. -/
theorem C71_program_partial {N : Names} (hN : Careful N) {n : Nat} (Γ : Fin n → PTy N) (hΓ : GoodVars Γ) (f : Nat)
    (p : LStmt N n) (s s' : LState n) (o : Out Unit) (hp : SCovered Γ p) (hs : Ranged Γ s.st) (hi : StreamOk s.inp)
    (h : p.exec Γ f s = some (o, s')) (ha : o ≠ .fault .illFormed) :
    (o = .ret () ∧ s'.caught = s.caught) ↔ SFits Γ f p (abst s) := by
  constructor
  · rintro ⟨rfl, hk⟩
    exact C71_fits_partial hN Γ hΓ f p s s' hp hs h hk
  · intro hf
    rcases C66_program_partial hN Γ hΓ f p s hp hs hi hf with ⟨h1, _⟩ | ⟨s1, h1, _, h3, _⟩ | ⟨s1, h1⟩
    · rw [h] at h1; cases h1
    · rw [h] at h1; cases h1; exact ⟨rfl, h3⟩
    · rw [h] at h1; cases h1; exact absurd rfl ha

end

section
attribute [local instance] lp64

/-! ### the hypotheses can be met: `safe<int> + safe<int>`, both outcomes -/

example : (∃ e, Op2.safeVal .native looseException (.ar .add) (Opd.ofSafe i32) (Opd.ofSafe i32) 2147483647 1 = .thrown e) := by
  refine (C71_operator_partial .native trivial looseException (Or.inl rfl) (.ar .add) _ _ (by decide +kernel) (by decide +kernel)
    trivial 2147483647 1 (by decide +kernel) (by decide +kernel) (by decide +kernel)).2 ⟨i32, by decide +kernel, ?_⟩
  rintro (⟨_, _, ⟨v, h, hv⟩, _⟩ | ⟨h, _⟩)
  · cases h; exact absurd hv (by decide +kernel)
  · cases h

example : ¬ ∃ e, Op2.safeVal .native looseException (.ar .add) (Opd.ofSafe i32) (Opd.ofSafe i32) 2147483646 1 = .thrown e := by
  rw [C71_operator_partial .native trivial looseException (Or.inl rfl) (.ar .add) _ _ (by decide +kernel) (by decide +kernel)
    trivial 2147483646 1 (by decide +kernel) (by decide +kernel) (by decide +kernel)]
  rintro ⟨R, hR, hn⟩
  have : Out.ret R = .ret i32 := hR.symm.trans (by decide +kernel)
  cases this
  exact hn (Or.inl ⟨by decide +kernel, by decide +kernel, ⟨_, rfl, by decide +kernel⟩, nofun, nofun⟩)

/-! ### what need not fit -/

-- automatic promotion: the constant zero times anything is computed in an 8-bit type; the other operand does not fit it
example : PP.result .automatic .mul (Opd.range i32 0 0) (Opd.ofSafe i32) = .ret i8 ∧ ¬ i8.In 1000 ∧
    ZeroProduct i8 (Opd.range i32 0 0) (Opd.ofSafe i32) ∧
    arith .automatic looseException .mul (Opd.range i32 0 0) (Opd.ofSafe i32) 0 1000 = .ret 0 :=
  ⟨by decide +kernel, by decide +kernel, Or.inl ⟨rfl, rfl, Or.inl rfl⟩, by decide +kernel⟩

-- a negative number is compared with an unsigned one, and no exception is thrown because the ranges are apart; with ranges that
-- overlap there is one
example : PP.result .native .cmp (Opd.range i32 (-5) 3) (Opd.range u32 10 20) = .ret u32 ∧ ¬ u32.In (-5) ∧
    Apart u32 (Opd.range i32 (-5) 3) (Opd.range u32 10 20) ∧
    compare .native looseException .lt (Opd.range i32 (-5) 3) (Opd.range u32 10 20) (-5) 15 = .ret true ∧
    compare .native looseException .eq (Opd.range i32 (-5) 3) (Opd.range u32 10 20) (-5) 15 = .thrown .domain_error ∧
    compare .native looseException .lt (Opd.range i32 (-5) 13) (Opd.range u32 10 20) (-5) 15 = .thrown .domain_error :=
  ⟨by decide +kernel, by decide +kernel, ⟨by decide, by decide +kernel, by decide +kernel, fun _ => by decide⟩,
    by decide +kernel, by decide +kernel, by decide +kernel⟩

end

namespace Euclid
attribute [local instance] lp64

-- Euclid's algorithm (C66) again: the only finished executions are those without exceptions
example (f : Nat) (s s' : LState 3) (o : Out Unit) (hs : Ranged Γ s.st) (hi : StreamOk s.inp)
    (h : gcd.exec Γ f s = some (o, s')) (ha : o ≠ .fault .illFormed) : o = .ret () ∧ s'.caught = s.caught :=
  (C71_program_partial careful Γ good f gcd s s' o covered hs hi h ha).2 (fits f (abst s) hs)

end Euclid
end Verif.Props
