import Verif.Proofs.Blame
import Verif.Props.Port
import Verif.Props.Quiet

/-!
C88: whenever an execution goes wrong, one of the operations it carries out is one that is known to go wrong.
-/

namespace Verif.Props
open Spec Lang
section
variable [Arch]

private theorem storing_fine {N : Names} {n : Nat} {Γ : Fin n → PTy N} {s : LState n} (hs : Ranged Γ s.st) {i : Fin n}
    {x : Out Int} {m : Option (IState n)}
    (h : (∃ v, x = .ret v ∧ (Γ i).opd.Has v ∧ m = some ((abst s).write i v)) ∨ (∃ e, x = .thrown e) ∨ x = .fault .illFormed) :
    Fine Γ (some m) s (storing s i x).1 (storing s i x).2 := by
  rcases h with ⟨v, rfl, h1, rfl⟩ | ⟨e, rfl⟩ | rfl
  · exact ⟨Or.inl rfl, ranged_write hs h1, le_refl _, fun _ _ => rfl⟩
  · exact ⟨Or.inr (Or.inl ⟨e, rfl⟩), hs, le_refl _, fun h => by cases h⟩
  · exact ⟨Or.inr (Or.inr rfl), hs, le_refl _, fun h => by cases h⟩

private theorem one_proper {N : Names} {n : Nat} : EProper (.const tInt 1 : LExpr N n) := ⟨tInt_ok, ITy.in_one tInt⟩

/-- what an execution guarantees if its operations are clean (lemma for C88) -/
theorem exec_clean {N : Names} (hN : Careful N) {n : Nat} {Γ : Fin n → PTy N} (hΓ : GoodVars Γ) :
    ∀ (f : Nat) (p : LStmt N n) (s : LState n) (o : Out Unit) (s' : LState n), SProper p → Ranged Γ s.st →
      (∀ ev ∈ sEvents Γ f p s, ev.Clean) →
      p.exec Γ f s = some (o, s') → Fine Γ (iexec f p (abst s)) s o s'
  | 0, p, s, o, s', _, _, _, h => by cases p <;> cases h
  | f + 1, .skip, s, o, s', _, hs, _, h => by
    cases h
    exact ⟨Or.inl rfl, hs, le_refl _, fun _ _ => rfl⟩
  | f + 1, .assign i e, s, o, s', hc, hs, hl, h => by
    simp only [LStmt.exec, Option.some.injEq] at h
    rw [show o = (storing s i (assignVal Γ s.st i e)).1 by rw [h], show s' = (storing s i (assignVal Γ s.st i e)).2 by rw [h]]
    refine storing_fine hs ?_
    rcases assign_clean hN hΓ hs (i := i) hc hl with ⟨v, h1, h2, h3⟩ | h | h
    · refine Or.inl ⟨v, h1, h2, ?_⟩
      show (ival s.st e).map _ = _
      rw [h3]; rfl
    · exact Or.inr (Or.inl h)
    · exact Or.inr (Or.inr h)
  | f + 1, .opAssign op i e, s, o, s', hc, hs, hl, h => by
    simp only [LStmt.exec, Option.some.injEq] at h
    rw [show o = (storing s i (opAssignVal Γ s.st op i e)).1 by rw [h],
      show s' = (storing s i (opAssignVal Γ s.st op i e)).2 by rw [h]]
    refine storing_fine hs ?_
    rcases opAssign_clean hN hΓ hs (i := i) hc hl with ⟨v, h1, h2, h3⟩ | h | h
    · refine Or.inl ⟨v, h1, h2, ?_⟩
      rcases hv : ival s.st e with _ | w
      · rw [hv] at h3; cases h3
      · rw [hv] at h3
        have h3 : imath op (s.st i) w = some v := h3
        show (ival s.st e).bind (fun w => (imath op (s.st i) w).bind fun v => some ((abst s).write i v)) = _
        rw [hv]
        show (imath op (s.st i) w).bind _ = _
        rw [h3]; rfl
    · exact Or.inr (Or.inl h)
    · exact Or.inr (Or.inr h)
  | f + 1, .inc i, s, o, s', hc, hs, hl, h => by
    simp only [LStmt.exec, Option.some.injEq] at h
    rw [show o = (storing s i (opAssignVal Γ s.st (.ar .add) i (.const tInt 1))).1 by rw [h],
      show s' = (storing s i (opAssignVal Γ s.st (.ar .add) i (.const tInt 1))).2 by rw [h]]
    refine storing_fine hs ?_
    rcases opAssign_clean hN hΓ hs (i := i) one_proper hl with ⟨v, h1, h2, h3⟩ | h | h
    · refine Or.inl ⟨v, h1, h2, ?_⟩
      have h3 : some (s.st i + 1) = some v := h3
      cases h3; rfl
    · exact Or.inr (Or.inl h)
    · exact Or.inr (Or.inr h)
  | f + 1, .dec i, s, o, s', hc, hs, hl, h => by
    simp only [LStmt.exec, Option.some.injEq] at h
    rw [show o = (storing s i (opAssignVal Γ s.st (.ar .sub) i (.const tInt 1))).1 by rw [h],
      show s' = (storing s i (opAssignVal Γ s.st (.ar .sub) i (.const tInt 1))).2 by rw [h]]
    refine storing_fine hs ?_
    rcases opAssign_clean hN hΓ hs (i := i) one_proper hl with ⟨v, h1, h2, h3⟩ | h | h
    · refine Or.inl ⟨v, h1, h2, ?_⟩
      have h3 : some (s.st i - 1) = some v := h3
      cases h3; rfl
    · exact Or.inr (Or.inl h)
    · exact Or.inr (Or.inr h)
  | f + 1, .input i, s, o, s', hc, hs, hl, h => by
    simp only [LStmt.exec, Option.some.injEq] at h
    obtain ⟨hr, hi⟩ := input_clean hN (hΓ i).1 (hΓ i).2 (clean_one hl) (hs i)
    have ho : o = (inputStep (Γ i) (s.st i) s.inp).1 := by rw [Prod.mk.injEq] at h; exact h.1.symm
    have hs' := (Prod.mk.inj h).2
    refine ⟨?_, ?_, ?_, ?_⟩
    · rw [ho]
      rcases hi with ⟨_, _, _, _, hi⟩ | hi | hi
      · rw [hi]; exact Or.inl rfl
      · exact Or.inr (Or.inl hi)
      · exact Or.inr (Or.inr hi)
    · rw [← hs']; exact ranged_write hs hr
    · rw [← hs']; exact le_refl _
    · intro h0 _
      rw [ho] at h0
      rcases hi with ⟨neg, k, rest, n1, n3⟩ | ⟨x, hi⟩ | hi
      · show some ((iread s.inp.buf).map _) = _
        rw [iread_number n1, ← hs', n3]; rfl
      · rw [hi] at h0; cases h0
      · rw [hi] at h0; cases h0
  | f + 1, .output e, s, o, s', hc, hs, hl, h => by
    simp only [LStmt.exec] at h
    rcases ty_st Γ e with ⟨A, ea⟩ | ea
    · rw [ea, ret_bind] at h
      have hl := clean_after ea hl
      rcases eval_clean hN hΓ hs e hc (clean_left hl) with ⟨A', x, ea', wA, vx, hx, mx⟩ | ⟨x, ex⟩ | ex
      · rw [ea] at ea'; obtain rfl := Out.ret.inj ea'
        rw [vx, ret_bind] at h
        have : outputStep A x = .ret (printInt x) := output_good wA (clean_after1 (f := fun v => Event.output A v) vx (clean_right hl)) hx
        rw [this] at h
        cases h
        refine ⟨Or.inl rfl, hs, le_refl _, fun _ _ => ?_⟩
        show some ((ival s.st e).map _) = _
        rw [mx]; rfl
      · rw [ex] at h; cases h
        exact ⟨Or.inr (Or.inl ⟨x, rfl⟩), hs, le_refl _, fun h => by cases h⟩
      · rw [ex] at h; cases h
        exact ⟨Or.inr (Or.inr rfl), hs, le_refl _, fun h => by cases h⟩
    · rw [ea] at h; cases h
      exact ⟨Or.inr (Or.inr rfl), hs, le_refl _, fun h => by cases h⟩
  | f + 1, .seq a b, s, o, s', hc, hs, hl, h => by
    simp only [LStmt.exec] at h
    simp only [iexec]
    rcases ha : a.exec Γ f s with _ | ⟨o1, s1⟩
    · rw [ha] at h; cases h
    · rw [ha] at h
      obtain ⟨k1, k2, k3, k4⟩ := exec_clean hN hΓ f a s o1 s1 hc.1 hs (clean_left hl) ha
      rcases k1 with rfl | ⟨x, rfl⟩ | rfl
      · dsimp only at h
        obtain ⟨g1, g2, g3, g4⟩ := exec_clean hN hΓ f b s1 o s' hc.2 k2 (by have hl := clean_right hl; rw [ha] at hl; exact hl) h
        refine ⟨g1, g2, le_trans k3 g3, fun h1 h2 => ?_⟩
        rw [k4 rfl (by omega)]
        exact g4 h1 (by omega)
      · cases h; exact ⟨Or.inr (Or.inl ⟨x, rfl⟩), k2, k3, fun h => by cases h⟩
      · cases h; exact ⟨Or.inr (Or.inr rfl), k2, k3, fun h => by cases h⟩
  | f + 1, .ite c a b, s, o, s', hc, hs, hl, h => by
    simp only [LStmt.exec] at h
    simp only [iexec]
    rcases cond_clean hN hΓ hs c hc.1 (clean_left hl) with ⟨x, h1, h2⟩ | ⟨x, h1⟩ | h1
    · have hl := clean_after h1 (clean_right hl)
      rw [h1] at h
      rw [show (abst s).st = s.st from rfl, h2]
      cases x
      · exact exec_clean hN hΓ f b s o s' hc.2.2 hs hl h
      · exact exec_clean hN hΓ f a s o s' hc.2.1 hs hl h
    · rw [h1] at h; cases h
      exact ⟨Or.inr (Or.inl ⟨x, rfl⟩), hs, le_refl _, fun h => by cases h⟩
    · rw [h1] at h; cases h
      exact ⟨Or.inr (Or.inr rfl), hs, le_refl _, fun h => by cases h⟩
  | f + 1, .while c a, s, o, s', hc, hs, hl, h => by
    simp only [LStmt.exec] at h
    simp only [iexec]
    rcases cond_clean hN hΓ hs c hc.1 (clean_left hl) with ⟨x, h1, h2⟩ | ⟨x, h1⟩ | h1
    · have hl := clean_after h1 (clean_right hl)
      rw [h1] at h
      rw [show (abst s).st = s.st from rfl, h2]
      cases x
      · cases h; exact ⟨Or.inl rfl, hs, le_refl _, fun _ _ => rfl⟩
      · dsimp only at h ⊢
        rw [if_pos rfl] at hl
        rcases ha : a.exec Γ f s with _ | ⟨o1, s1⟩
        · rw [ha] at h; cases h
        · rw [ha] at h
          obtain ⟨k1, k2, k3, k4⟩ := exec_clean hN hΓ f a s o1 s1 hc.2 hs (clean_left hl) ha
          rcases k1 with rfl | ⟨x, rfl⟩ | rfl
          · dsimp only at h
            obtain ⟨g1, g2, g3, g4⟩ := exec_clean hN hΓ f (.while c a) s1 o s' hc k2 (by have hl := clean_right hl; rw [ha] at hl; exact hl) h
            refine ⟨g1, g2, le_trans k3 g3, fun h1 h2 => ?_⟩
            rw [k4 rfl (by omega)]
            exact g4 h1 (by omega)
          · cases h; exact ⟨Or.inr (Or.inl ⟨x, rfl⟩), k2, k3, fun h => by cases h⟩
          · cases h; exact ⟨Or.inr (Or.inr rfl), k2, k3, fun h => by cases h⟩
    · rw [h1] at h; cases h
      exact ⟨Or.inr (Or.inl ⟨x, rfl⟩), hs, le_refl _, fun h => by cases h⟩
    · rw [h1] at h; cases h
      exact ⟨Or.inr (Or.inr rfl), hs, le_refl _, fun h => by cases h⟩
  | f + 1, .tryCatch a b, s, o, s', hc, hs, hl, h => by
    simp only [LStmt.exec] at h
    simp only [iexec]
    rcases ha : a.exec Γ f s with _ | ⟨o1, s1⟩
    · rw [ha] at h; cases h
    · rw [ha] at h
      obtain ⟨k1, k2, k3, k4⟩ := exec_clean hN hΓ f a s o1 s1 hc.1 hs (clean_left hl) ha
      rcases k1 with rfl | ⟨x, rfl⟩ | rfl
      · cases h; exact ⟨Or.inl rfl, k2, k3, k4⟩
      · dsimp only at h
        obtain ⟨g1, g2, g3, g4⟩ := exec_clean hN hΓ f b { s1 with caught := s1.caught + 1 } o s' hc.2 k2
          (by have hl := clean_right hl; rw [ha] at hl; exact hl) h
        have g3 : s1.caught + 1 ≤ s'.caught := g3
        exact ⟨g1, g2, by omega, fun _ h => absurd h (by omega)⟩
      · cases h; exact ⟨Or.inr (Or.inr rfl), k2, k3, fun h => by cases h⟩

/-- Every program, with whatever types, operators and conversions: if each operation that is carried out during an execution is clean
(a condition on the values of its operands), there is no undefined behaviour and no failed assertion, the variables are
within their ranges at the end, and if no exception was caught or is thrown the result is that of the program over the integers. -/
theorem C88_clean {N : Names} (hN : Careful N) {n : Nat} (Γ : Fin n → PTy N) (hΓ : GoodVars Γ) (p : LStmt N n) (hp : SProper p)
    (f : Nat) (s s' : LState n) (o : Out Unit) (hs : Ranged Γ s.st) (h : p.exec Γ f s = some (o, s'))
    (hc : ∀ ev ∈ sEvents Γ f p s, ev.Clean) :
    NoUb o ∧ Ranged Γ s'.st ∧ (o = .ret () → s'.caught = s.caught → iexec f p (abst s) = some (some (abst s'))) := by
  obtain ⟨h1, h2, _, h4⟩ := exec_clean hN hΓ f p s o s' hp hs hc h
  refine ⟨?_, h2, h4⟩
  rcases h1 with rfl | ⟨x, rfl⟩ | rfl <;> exact ⟨(by intro h; cases h), (by intro h; cases h)⟩

/-- The same read backwards: if an execution has undefined behaviour or fails an assertion, or leaves a variable out of its range, or
ends normally with another result than the program over the integers, then among the operations it carried out there is one that is
not clean. -/
theorem C88_blame {N : Names} (hN : Careful N) {n : Nat} (Γ : Fin n → PTy N) (hΓ : GoodVars Γ) (p : LStmt N n) (hp : SProper p)
    (f : Nat) (s s' : LState n) (o : Out Unit) (hs : Ranged Γ s.st) (h : p.exec Γ f s = some (o, s'))
    (hw : ¬ NoUb o ∨ ¬ Ranged Γ s'.st ∨ (o = .ret () ∧ s'.caught = s.caught ∧ iexec f p (abst s) ≠ some (some (abst s')))) :
    ∃ ev ∈ sEvents Γ f p s, ¬ ev.Clean := by
  by_contra hn
  push Not at hn
  obtain ⟨h1, h2, h3⟩ := C88_clean hN Γ hΓ p hp f s s' o hs h hn
  rcases hw with hw | hw | ⟨w1, w2, w3⟩
  · exact hw h1
  · exact hw h2
  · exact w3 (h3 w1 w2)

private theorem cond_of {N : Names} (hN : Careful N) {n : Nat} {Γ : Fin n → PTy N} (hΓ : GoodVars Γ) {s : Fin n → Int} (hs : Ranged Γ s)
    {c : LCond N n} (hc : CProper c) (hl : ∀ ev ∈ cEvents Γ s c, ev.Clean) {x : Bool} (h : c.eval Γ s = .ret x) : icond s c = some x := by
  rcases cond_clean hN hΓ hs c hc hl with ⟨b, h1, h2⟩ | ⟨e, h1⟩ | h1
  · rw [h1] at h; cases h; exact h2
  · rw [h1] at h; cases h
  · rw [h1] at h; cases h

/-- as long as the execution is not finished, neither is the computation over the integers -/
private theorem none_clean {N : Names} (hN : Careful N) {n : Nat} {Γ : Fin n → PTy N} (hΓ : GoodVars Γ) :
    ∀ (f : Nat) (p : LStmt N n) (s : LState n), NoTry p → SProper p → Ranged Γ s.st →
      (∀ ev ∈ sEvents Γ f p s, ev.Clean) → p.exec Γ f s = none →
      iexec f p (abst s) = none
  | 0, p, s, _, _, _, _, _ => by cases p <;> rfl
  | f + 1, p, s, hn, hp, hs, hl, h => by
    cases p with
    | seq a b =>
      simp only [LStmt.exec] at h
      simp only [iexec]
      rcases ha : a.exec Γ f s with _ | ⟨o1, s1⟩
      · rw [none_clean hN hΓ f a s hn.1 hp.1 hs (clean_left hl) ha]
      · rw [ha] at h
        cases o1 with
        | ret _ =>
          obtain ⟨_, k2, _, k4⟩ := exec_clean hN hΓ f a s _ s1 hp.1 hs (clean_left hl) ha
          rw [k4 rfl (caught_same Γ f a s _ s1 hn.1 ha)]
          exact none_clean hN hΓ f b s1 hn.2 hp.2 k2 (by have hl := clean_right hl; rw [ha] at hl; exact hl) h
        | thrown x => cases h
        | fault k => cases h
    | ite c a b =>
      simp only [LStmt.exec] at h
      simp only [iexec]
      cases hc : c.eval Γ s.st with
      | ret x =>
        rw [hc] at h
        rw [show icond (abst s).st c = some x from cond_of hN hΓ hs hp.1 (clean_left hl) hc]
        have hl := clean_after hc (clean_right hl)
        cases x
        · exact none_clean hN hΓ f b s hn.2 hp.2.2 hs hl h
        · exact none_clean hN hΓ f a s hn.1 hp.2.1 hs hl h
      | thrown x => rw [hc] at h; cases h
      | fault k => rw [hc] at h; cases h
    | «while» c a =>
      simp only [LStmt.exec] at h
      simp only [iexec]
      cases hc : c.eval Γ s.st with
      | ret x =>
        rw [hc] at h
        rw [show icond (abst s).st c = some x from cond_of hN hΓ hs hp.1 (clean_left hl) hc]
        have hl := clean_after hc (clean_right hl)
        cases x
        · cases h
        · dsimp only at h ⊢
          rw [if_pos rfl] at hl
          rcases ha : a.exec Γ f s with _ | ⟨o1, s1⟩
          · rw [none_clean hN hΓ f a s hn hp.2 hs (clean_left hl) ha]
          · rw [ha] at h
            cases o1 with
            | ret _ =>
              obtain ⟨_, k2, _, k4⟩ := exec_clean hN hΓ f a s _ s1 hp.2 hs (clean_left hl) ha
              rw [k4 rfl (caught_same Γ f a s _ s1 hn ha)]
              exact none_clean hN hΓ f (.while c a) s1 hn hp k2 (by have hl := clean_right hl; rw [ha] at hl; exact hl) h
            | thrown x => cases h
            | fault k => cases h
      | thrown x => rw [hc] at h; cases h
      | fault k => rw [hc] at h; cases h
    | tryCatch a b => exact hn.elim
    | skip => cases h
    | assign i e => cases h
    | opAssign o i e => cases h
    | inc i => cases h
    | dec i => cases h
    | input i =>
      simp only [LStmt.exec] at h
      cases h
    | output e =>
      simp only [LStmt.exec] at h
      split at h <;> cases h

/-- Endless loops: if a program without exception handlers ends over the integers, within `f` nested steps, and its execution is not
finished within so many steps, then among the operations it has carried out there is one that is not clean. -/
theorem C88_endless {N : Names} (hN : Careful N) {n : Nat} (Γ : Fin n → PTy N) (hΓ : GoodVars Γ) (p : LStmt N n) (hp : SProper p)
    (hn : NoTry p) (f : Nat) (s : LState n) (hs : Ranged Γ s.st) (h : p.exec Γ f s = none) (hi : iexec f p (abst s) ≠ none) :
    ∃ ev ∈ sEvents Γ f p s, ¬ ev.Clean := by
  by_contra hc
  push Not at hc
  exact hi (none_clean hN hΓ f p s hn hp hs hc h)

/-! ### which operations are clean -/

/-- A clean operation of the library does what it should. -/
theorem C88_operator (pp : PP) (hpp : pp.Wf) (p : EP) (hp : p.ae = .throw ∨ p.ae = .trap) (o : Op2) (T U : Opd) (hT : T.Wf)
    (hU : U.Wf) (t u : Int) (ht : T.Has t) (hu : U.Has u) (hc : OpClean pp p T U o t u) : OpRight pp p T U o t u := by
  rcases op_clean hpp hp hT hU hc ht hu with ⟨S, v, h1, h2, _, h4, h5, h6⟩ | h
  · exact Or.inl ⟨S, v, h1, h2, h5, h4, h6⟩
  · exact Or.inr h

private theorem right_keeps {pp : PP} {p : EP} {o : Op2} {T U : Opd} {t u : Int} (h : OpRight pp p T U o t u) :
    Keeps pp p T U o t u := by
  intro S v w hS hv hm
  rcases h with ⟨S', v', h1, h2, h3, _, h5⟩ | ⟨e, h⟩ | h
  · rw [h1] at hS; rw [h5] at hm
    cases hS; cases hm
    exact ⟨h2, h3⟩
  · rw [h] at hv; cases hv
  · rw [h] at hv; cases hv

private theorem quot_right {pp : PP} {p : EP} {T U : Opd} {t u : Int} (h : OpRight pp p T U (.ar .div) t u) :
    QuotRight (arith pp p .div T U t u) t u := by
  rcases h with ⟨S, v, _, _, _, h4, h5⟩ | h
  · simp only [imath] at h5
    split at h5
    · cases h5
    · rename_i h0; cases h5; exact Or.inl ⟨h4, h0⟩
  · exact Or.inr h

private theorem rem_right {pp : PP} {p : EP} {T U : Opd} {t u : Int} (h : OpRight pp p T U (.ar .mod) t u) :
    RemRight (arith pp p .mod T U t u) t u := by
  rcases h with ⟨S, v, _, _, _, h4, h5⟩ | h
  · simp only [imath] at h5
    split at h5
    · cases h5
    · rename_i h0; cases h5; exact Or.inl ⟨h4, h0⟩
  · exact Or.inr h

private theorem left_right {pp : PP} {p : EP} {T U : Opd} {t u : Int} (h : OpRight pp p T U .shl t u) :
    ShlRight (shl pp p T U t u) t u := by
  rcases h with ⟨S, v, _, _, _, h4, h5⟩ | h
  · simp only [imath] at h5
    split at h5
    · rename_i h0; cases h5; exact Or.inl ⟨h4, h0⟩
    · cases h5
  · exact Or.inr h

private theorem right_right {pp : PP} {p : EP} {T U : Opd} {t u : Int} (h : OpRight pp p T U .shr t u) :
    ShrRight (shr pp p T U t u) t u := by
  rcases h with ⟨S, v, _, _, _, h4, h5⟩ | h
  · simp only [imath] at h5
    split at h5
    · rename_i h0; cases h5; exact Or.inl ⟨h4, by tauto⟩
    · cases h5
  · exact Or.inr h

/-- Quotients and remainders are clean, with every promotion policy and a policy that throws on arithmetic errors, exactly if they do
what they should. -/
theorem C88_quotient (pp : PP) (hpp : pp.Wf) (p : EP) (hp : p.ae = .throw) (T U : Opd) (hT : T.Wf) (hU : U.Wf) (t u : Int)
    (ht : T.Has t) (hu : U.Has u) :
    (OpRight pp p T U (.ar .div) t u ↔ OpClean pp p T U (.ar .div) t u) ∧
    (OpRight pp p T U (.ar .mod) t u ↔ OpClean pp p T U (.ar .mod) t u) :=
  ⟨⟨fun h => Or.inr ⟨right_keeps h, Or.inl hp, fun R hR => (C76_div pp hpp p hp T U hT hU R hR t u ht hu).1 (quot_right h)⟩,
    C88_operator pp hpp p (Or.inl hp) _ T U hT hU t u ht hu⟩,
    ⟨fun h => Or.inr ⟨right_keeps h, Or.inl hp, fun R hR => (C76_rem pp hpp p hp T U hT hU R hR t u ht hu).1 (rem_right h)⟩,
    C88_operator pp hpp p (Or.inl hp) _ T U hT hU t u ht hu⟩⟩

/-- With a policy that throws on the errors the conditions are exact, whatever the promotion policy: an operation that is not clean
does go wrong. -/
theorem C88_exact (pp : PP) (hpp : pp.Wf) (p : EP) (hp : p.ae = .throw) (hi : p.idb = .throw) (o : Op2) (T U : Opd) (hT : T.Wf)
    (hU : U.Wf) (t u : Int) (ht : T.Has t) (hu : U.Has u) : OpRight pp p T U o t u ↔ OpClean pp p T U o t u := by
  refine ⟨fun h => ?_, C88_operator pp hpp p (Or.inl hp) o T U hT hU t u ht hu⟩
  have hk := right_keeps h
  cases o with
  | ar a =>
    cases a with
    | add => exact Or.inl trivial
    | sub => exact Or.inl trivial
    | mul => exact Or.inl trivial
    | div => exact (C88_quotient pp hpp p hp T U hT hU t u ht hu).1.1 h
    | mod => exact (C88_quotient pp hpp p hp T U hT hU t u ht hu).2.1 h
  | bit b => exact Or.inr ⟨hk, trivial⟩
  | shl =>
    exact Or.inr ⟨hk, Or.inl hp, Or.inl hi, fun R hR => (C76_left pp hpp p hp hi T U hT hU R hR t u ht hu).1 (left_right h)⟩
  | shr =>
    exact Or.inr ⟨hk, Or.inl hp, Or.inl hi, fun R hR => (C76_right pp hpp p hp hi T U hT hU R hR t u ht hu).1 (right_right h)⟩

/-- With a policy that throws or traps on the errors: an operation does what it should if and only if it is clean or rejected by
the compiler. -/
theorem C88_firm (pp : PP) (hpp : pp.Wf) (p : EP) (hp : Firm p.ae) (hi : Firm p.idb) (o : Op2) (T U : Opd) (hT : T.Wf)
    (hU : U.Wf) (t u : Int) (ht : T.Has t) (hu : U.Has u) :
    OpRight pp p T U o t u ↔ OpClean pp p T U o t u ∨ o.safeVal pp p T U t u = .fault .illFormed := by
  refine ⟨fun h => ?_, fun h => h.elim (C88_operator pp hpp p hp o T U hT hU t u ht hu) fun h => Or.inr (Or.inr h)⟩
  obtain ⟨p', hp', hi', e | e⟩ := as_throws pp hp hi o T U t u
  swap
  · exact Or.inr e
  left
  have hk := right_keeps h
  unfold OpRight at h
  rw [e] at h
  rcases (C88_exact pp hpp p' hp' hi' o T U hT hU t u ht hu).1 h with c | ⟨_, c⟩
  · cases o with
    | ar a =>
      cases a with
      | div => exact Or.inr ⟨hk, hp, fun R hR => (C76_div pp hpp p' hp' T U hT hU R hR t u ht hu).1 (quot_right h)⟩
      | mod => exact Or.inr ⟨hk, hp, fun R hR => (C76_rem pp hpp p' hp' T U hT hU R hR t u ht hu).1 (rem_right h)⟩
      | _ => exact Or.inl trivial
    | bit b => exact Or.inr ⟨hk, trivial⟩
    | shl => exact Or.inr ⟨hk, hp, hi, fun R hR => (C76_left pp hpp p' hp' hi' T U hT hU R hR t u ht hu).1 (left_right h)⟩
    | shr => exact Or.inr ⟨hk, hp, hi, fun R hR => (C76_right pp hpp p' hp' hi' T U hT hU R hR t u ht hu).1 (right_right h)⟩
  · cases o with
    | ar a =>
      cases a with
      | div => exact Or.inr ⟨hk, hp, c.2⟩
      | mod => exact Or.inr ⟨hk, hp, c.2⟩
      | _ => exact Or.inl trivial
    | bit b => exact Or.inr ⟨hk, trivial⟩
    | shl => exact Or.inr ⟨hk, hp, hi, c.2.2⟩
    | shr => exact Or.inr ⟨hk, hp, hi, c.2.2⟩

/-- Sums, differences and products are always clean; bitwise operations are clean, with every promotion policy, exactly if they
do what they should. -/
theorem C88_always (pp : PP) (hpp : pp.Wf) (p : EP) (hp : p.ae = .throw ∨ p.ae = .trap) (T U : Opd) (hT : T.Wf) (hU : U.Wf)
    (t u : Int) (ht : T.Has t) (hu : U.Has u) :
    (∀ a, a = .add ∨ a = .sub ∨ a = .mul → OpClean pp p T U (.ar a) t u) ∧
    ∀ b, OpRight pp p T U (.bit b) t u ↔ OpClean pp p T U (.bit b) t u := by
  refine ⟨fun a h => ?_, fun b => ⟨fun h => Or.inr ⟨right_keeps h, trivial⟩, C88_operator pp hpp p hp _ T U hT hU t u ht hu⟩⟩
  rcases h with rfl | rfl | rfl <;> exact Or.inl trivial

/-! ### covered programs -/

theorem all_after {N : Names} {α : Type} {x : Out α} {f : α → List (Event N)} (h : ∀ a, x = .ret a → ∀ ev ∈ f a, ev.Clean) :
    ∀ ev ∈ after x f, ev.Clean := by
  cases x with
  | ret a => exact h a rfl
  | thrown e => exact fun _ h => by cases h
  | fault k => exact fun _ h => by cases h

theorem all_append {N : Names} {l m : List (Event N)} (h1 : ∀ ev ∈ l, ev.Clean) (h2 : ∀ ev ∈ m, ev.Clean) :
    ∀ ev ∈ l ++ m, ev.Clean := fun ev h => (List.mem_append.1 h).elim (h1 ev) (h2 ev)

theorem all_one {N : Names} {e : Event N} (h : e.Clean) : ∀ ev ∈ [e], ev.Clean := fun ev he => by
  rw [List.mem_singleton.1 he]; exact h

private theorem bin_covered {N : Names} {o : Op2} {T U : PTy N} {t u : Int} (h : BinCovered o T U) : (Event.bin o T U t u).Clean := by
  refine ⟨fun _ q e h1 h2 => Or.inl (h.2 q e h1 h2), fun hs => ?_⟩
  rcases h.1 with g | g <;> rw [g] at hs <;> simp at hs

private theorem conv_covered {N : Names} {S T : PTy N} {t : Int} (h : ConvCovered S T) (hT : PTy.Wf T) (ht : T.opd.Has t) :
    (Event.conv S T t).Clean := by
  intro g1 g2
  rcases h.2.2 with h | h | h
  · rw [h] at g1; cases g1
  · rw [h] at g2; cases g2
  · exact h t (hT.1.has_in ht)

private theorem eval_has {N : Names} (hN : Careful N) {n : Nat} {Γ : Fin n → PTy N} (hΓ : GoodVars Γ) {s : Fin n → Int}
    (hs : Ranged Γ s) {e : LExpr N n} (h : ECovered Γ e) {T : PTy N} {t : Int} (h1 : e.ty Γ = .ret T) (h2 : e.eval Γ s = .ret t) :
    PTy.Wf T ∧ T.opd.Has t := by
  rcases eval_good hN hΓ hs e h with ⟨T', v, g1, g2, g3, g4, _⟩ | ⟨x, g⟩ | g
  · rw [h1] at g1; rw [h2] at g3; cases g1; cases g3; exact ⟨g2, g4⟩
  · rw [h2] at g; cases g
  · rw [h2] at g; cases g

private theorem ecovered {N : Names} (hN : Careful N) {n : Nat} {Γ : Fin n → PTy N} (hΓ : GoodVars Γ) {s : Fin n → Int}
    (hs : Ranged Γ s) : ∀ e : LExpr N n, ECovered Γ e → ∀ ev ∈ eEvents Γ s e, ev.Clean
  | .var _, _ => fun _ h => by cases h
  | .const _ _, _ => fun _ h => by cases h
  | .lit _, _ => fun _ h => by cases h
  | .pos a, h => ecovered hN hΓ hs a h
  | .neg a, h => all_after fun T hT => all_append (ecovered hN hΓ hs a h.1) <| all_after fun t _ => all_one fun g => by
      rw [h.2 T hT] at g; cases g
  | .cast S a, h => all_after fun T hT => all_append (ecovered hN hΓ hs a h.1) <| all_after fun t ht => all_one <| by
      obtain ⟨g1, g2⟩ := eval_has hN hΓ hs h.1 hT ht
      exact conv_covered (h.2 T hT) g1 g2
  | .bin o a b, h => all_after fun T hT => all_after fun U hU => all_append (ecovered hN hΓ hs a h.1) <| all_after fun t _ =>
      all_append (ecovered hN hΓ hs b h.2.1) <| all_after fun u _ => all_one (bin_covered (h.2.2 T U hT hU))

private theorem ccovered {N : Names} (hN : Careful N) {n : Nat} {Γ : Fin n → PTy N} (hΓ : GoodVars Γ) {s : Fin n → Int}
    (hs : Ranged Γ s) : ∀ c : LCond N n, CCovered Γ c → ∀ ev ∈ cEvents Γ s c, ev.Clean
  | .cmp o a b, h => all_after fun T hT => all_after fun U hU => all_append (ecovered hN hΓ hs a h.1) <| all_after fun t ht =>
      all_append (ecovered hN hΓ hs b h.2.1) <| all_after fun u hu => all_one fun g => by
        rcases h.2.2 T U hT hU with k | k
        · rcases k with k | k <;> rw [k] at g <;> simp at g
        · exact ⟨k t (Or.inl (eval_has hN hΓ hs h.1 hT ht).2), k u (Or.inr (eval_has hN hΓ hs h.2.1 hU hu).2)⟩
  | .truth a, h => all_after fun T _ => all_append (ecovered hN hΓ hs a h) <| all_after fun t _ => all_one trivial
  | .not a, h => ccovered hN hΓ hs a h
  | .and a b, h => all_append (ccovered hN hΓ hs a h.1) <| all_after fun x _ => by
      cases x
      · exact fun _ h => by cases h
      · exact ccovered hN hΓ hs b h.2
  | .or a b, h => all_append (ccovered hN hΓ hs a h.1) <| all_after fun x _ => by
      cases x
      · exact ccovered hN hΓ hs b h.2
      · exact fun _ h => by cases h

private theorem opcovered {N : Names} (hN : Careful N) {n : Nat} {Γ : Fin n → PTy N} (hΓ : GoodVars Γ) {s : Fin n → Int}
    (hs : Ranged Γ s) {o : Op2} {i : Fin n} {e : LExpr N n} (h : AssignCovered Γ o i e) : ∀ ev ∈ opEvents Γ s o i e, ev.Clean :=
  all_after fun U hU => all_append (ecovered hN hΓ hs e h.1) <| all_after fun u _ => all_after fun S hS => by
    refine fun ev he => (List.mem_cons.1 he).elim (fun h' => h' ▸ bin_covered (h.2 U hU)) fun he => ?_
    refine all_after (fun v _ => all_one ?_) ev he
    intro _ g2
    rw [pBinTy_safe (h.2 U hU).1 hS] at g2
    cases g2

/-- All operations of a covered program are clean, in every execution from a state within the ranges: C59 and C60 are the
special case of C88 in which the types alone rule out the values that go wrong. -/
theorem C88_covered {N : Names} (hN : Careful N) {n : Nat} (Γ : Fin n → PTy N) (hΓ : GoodVars Γ) :
    ∀ (f : Nat) (p : LStmt N n) (s : LState n), SCovered Γ p → Ranged Γ s.st → ∀ ev ∈ sEvents Γ f p s, ev.Clean
  | 0, _, _, _, _ => fun _ h => by cases h
  | f + 1, .skip, _, _, _ => fun _ h => by cases h
  | f + 1, .assign i e, s, hc, hs => all_after fun T hT => all_append (ecovered hN hΓ hs e hc.1) <| all_after fun t ht => by
      obtain ⟨g1, g2⟩ := eval_has hN hΓ hs hc.1 hT ht
      exact all_one (conv_covered (hc.2 T hT) g1 g2)
  | f + 1, .opAssign o i e, s, hc, hs => opcovered hN hΓ hs hc
  | f + 1, .inc i, s, hc, hs => opcovered hN hΓ hs (inc_covered hc (Or.inl rfl))
  | f + 1, .dec i, s, hc, hs => opcovered hN hΓ hs (inc_covered hc (Or.inr rfl))
  | f + 1, .input i, s, ⟨c1, c2, c3, c4⟩, hs => all_one <| by
      refine ⟨fun g => absurd g c2, fun _ => ?_, fun g => by rw [c1] at g; cases g⟩
      have hsafe : (Γ i).opd.kind = .safe := (hΓ i).2.resolve_left (isSafe_kind c1)
      have hp := ep_careful hN ((hΓ i).1.2.2.1 hsafe).2
      have e : inputStep (Γ i) (s.st i) s.inp = Verif.input (Γ i).ep (Γ i).opd (s.st i) s.inp := by
        unfold inputStep; rw [c1, if_pos rfl]
      rw [e]
      exact (input_cases hp (hΓ i).1.1 c2 (s.st i) s.inp ⟨c3, c4⟩ (hs i)).1
  | f + 1, .output e, s, hc, hs => all_after fun T hT => all_append (ecovered hN hΓ hs e hc.1) <| all_after fun t _ =>
      all_one (hc.2 T hT)
  | f + 1, .seq a b, s, hc, hs => all_append (C88_covered hN Γ hΓ f a s hc.1 hs) <| by
      split
      · rename_i s1 ha
        exact C88_covered hN Γ hΓ f b s1 hc.2 (exec_fine hN hΓ f a s _ s1 hc.1 hs ha).2.1
      · exact fun _ h => by cases h
  | f + 1, .ite c a b, s, hc, hs => all_append (ccovered hN hΓ hs c hc.1) <| all_after fun x _ => by
      cases x
      · exact C88_covered hN Γ hΓ f b s hc.2.2 hs
      · exact C88_covered hN Γ hΓ f a s hc.2.1 hs
  | f + 1, .while c a, s, hc, hs => all_append (ccovered hN hΓ hs c hc.1) <| all_after fun x _ => by
      cases x
      · exact fun _ h => by cases h
      · refine all_append (C88_covered hN Γ hΓ f a s hc.2 hs) ?_
        split
        · rename_i s1 ha
          exact C88_covered hN Γ hΓ f (.while c a) s1 hc (exec_fine hN hΓ f a s _ s1 hc.2 hs ha).2.1
        · exact fun _ h => by cases h
  | f + 1, .tryCatch a b, s, hc, hs => all_append (C88_covered hN Γ hΓ f a s hc.1 hs) <| by
      split
      · rename_i s1 ha
        exact C88_covered hN Γ hΓ f b _ hc.2 (exec_fine hN hΓ f a s _ s1 hc.1 hs ha).2.1
      · exact fun _ h => by cases h

end

/-! ### a program that is not covered: Euclid's algorithm with `safe<int>` -/

namespace EuclidInt
attribute [local instance] lp64
open Euclid (names careful step gcd istep)

/-- `safe<int>` -/
abbrev w : PTy names := ⟨Opd.ofSafe i32, some (), some ()⟩

/-- three variables -/
def Γ : Fin 3 → PTy names := fun _ => w

theorem good : GoodVars Γ := fun _ => ⟨⟨show (Opd.ofSafe i32).Wf by decide +kernel, nofun, fun _ => ⟨nofun, nofun⟩, nofun⟩, Or.inr rfl⟩

theorem proper : SProper gcd := ⟨⟨trivial, by decide +kernel, by decide +kernel⟩, ⟨trivial, trivial⟩, trivial, trivial⟩

/-- `INT_MIN` is a possible dividend, so remainders of `safe<int>` are not covered -/
example : ¬ OpCovered .native looseException (Opd.ofSafe i32) (Opd.ofSafe i32) (.ar .mod) := fun h =>
  (h.1 i32 (by decide +kernel)).2 rfl (by decide +kernel)

theorem has_iff (x : Int) : (Opd.ofSafe i32).Has x ↔ -2147483648 ≤ x ∧ x ≤ 2147483647 := Iff.rfl

/-- the only remainder that goes wrong is that of `INT_MIN` by itself -/
theorem mod_clean {t u : Int} (ht : w.opd.Has t) (hu : w.opd.Has u) (h : ¬ (t = -2147483648 ∧ u = -2147483648)) :
    (Event.bin (.ar .mod) w w t u).Clean := by
  refine ⟨fun _ q e _ _ => Or.inr ⟨?_, Or.inl rfl, ?_⟩, fun h => by cases h⟩
  · intro S v r hS _ hm
    have e' : (Op2.ar .mod).safeTy .native (Opd.ofSafe i32) (Opd.ofSafe i32) = .ret (Opd.ofSafe i32) := by decide +kernel
    obtain rfl : Opd.ofSafe i32 = S := Out.ret.inj (e'.symm.trans hS)
    refine ⟨by decide +kernel, ?_⟩
    simp only [imath] at hm
    split at hm
    · cases hm
    · cases hm
      have := Int.natAbs_tmod t u
      have := Nat.mod_le t.natAbs u.natAbs
      rw [has_iff] at ht hu ⊢
      rename_i h0
      have := Nat.mod_lt t.natAbs (y := u.natAbs) (by omega)
      omega
  · intro R hR
    obtain rfl : uac i32 i32 = R := Out.ret.inj hR
    refine fun hw => ?_
    obtain ⟨_, h1, ⟨h2, _⟩ | ⟨_, h2⟩⟩ := (C76_agree _ _ (show (Opd.ofSafe i32).Wf by decide +kernel)
      (show (Opd.ofSafe i32).Wf by decide +kernel) t u ht hu).1 hw
    · exact h ⟨h1, h2⟩
    · exact absurd h2 (by decide +kernel)

theorem step_clean (s : LState 3) (hs : Ranged Γ s.st) (h : ¬ (s.st 0 = -2147483648 ∧ s.st 1 = -2147483648)) (f : Nat) :
    ∀ ev ∈ sEvents Γ f step s, ev.Clean := by
  match f with
  | 0 => exact fun _ h => by cases h
  | f + 1 =>
    refine all_append ?_ ?_
    · match f with
      | 0 => exact fun _ h => by cases h
      | f + 1 =>
        exact all_after fun T _ => all_append (all_after fun A hA => all_after fun B hB => all_append (fun _ h => by cases h) <|
          all_after fun t ht => all_append (fun _ h => by cases h) <| all_after fun u hu => all_one <| by
            cases hA; cases hB; cases ht; cases hu
            exact mod_clean (hs 0) (hs 1) h) <| all_after fun v _ => all_one fun g => by cases g
    · split
      · match f with
        | 0 => exact fun _ h => by cases h
        | f + 1 =>
          refine all_append ?_ ?_
          · match f with
            | 0 => exact fun _ h => by cases h
            | f + 1 => exact all_after fun T _ => all_append (fun _ h => by cases h) <| all_after fun v _ => all_one fun g => by cases g
          · split
            · match f with
              | 0 => exact fun _ h => by cases h
              | f + 1 => exact all_after fun T _ => all_append (fun _ h => by cases h) <| all_after fun v _ => all_one fun g => by cases g
            · exact fun _ h => by cases h
      · exact fun _ h => by cases h

theorem cond_ne {s : LState 3} {x : Bool} (hs : Ranged Γ s.st)
    (h : LCond.eval Γ s.st (.cmp .ne (.var 1) (.const i32 0) : LCond names 3) = .ret x) : x = decide (s.st 1 ≠ 0) := by
  rcases cond_clean careful good hs (.cmp .ne (.var 1) (.const i32 0)) proper.1 (fun ev he => by
      have he : ev ∈ [Event.cmp .ne w (PTy.builtin i32) (s.st 1) 0] := he
      rw [List.mem_singleton.1 he]; exact fun g => by cases g) with ⟨b, h1, h2⟩ | ⟨e, h1⟩ | h1
  · rw [h] at h1; cases h1
    exact (Option.some.inj h2).symm
  · rw [h] at h1; cases h1
  · rw [h] at h1; cases h1

/-- every operation is clean, unless both numbers are `INT_MIN` -/
theorem gcd_clean : ∀ (f : Nat) (s : LState 3), Ranged Γ s.st → ¬ (s.st 0 = -2147483648 ∧ s.st 1 = -2147483648) →
    ∀ ev ∈ sEvents Γ f gcd s, ev.Clean
  | 0, _, _, _ => fun _ h => by cases h
  | f + 1, s, hs, h => all_append (all_after fun T hT => all_after fun U hU => all_append (fun _ h => by cases h) <|
      all_after fun t _ => all_append (fun _ h => by cases h) <| all_after fun u _ => all_one fun g => by cases hT; cases g) <|
      all_after fun x hx => by
        have hx := cond_ne hs hx
        subst hx
        split
        · rename_i h0
          have h0 : s.st 1 ≠ 0 := by simpa using h0
          refine all_append (step_clean s hs h f) ?_
          split
          · rename_i s1 ha
            obtain ⟨_, k2, _, k4⟩ := exec_clean careful good f step s _ s1 proper.2 hs (step_clean s hs h f) ha
            have k4 := k4 rfl (caught_same Γ f step s _ s1 ⟨trivial, trivial, trivial⟩ ha)
            refine gcd_clean f s1 k2 ?_
            match f with
            | 0 => cases k4
            | 1 => cases k4
            | 2 =>
              revert k4
              simp [step, iexec, ival, imath, abst, h0]
            | g + 3 =>
              rw [istep g (abst s) h0] at k4
              have k5 : s1.st 1 = (s.st 0).tmod (s.st 1) := by
                have := congrArg (fun r => IState.st r 1) (Option.some.inj (Option.some.inj k4))
                exact this.symm
              rintro ⟨_, h1⟩
              rw [k5] at h1
              have := Int.natAbs_tmod (s.st 0) (s.st 1)
              have := Nat.mod_lt (s.st 0).natAbs (y := (s.st 1).natAbs) (by omega)
              have b := (has_iff _).1 (hs 1)
              omega
          · exact fun _ h => by cases h
        · exact fun _ h => by cases h

/-- so its result is that of Euclid's algorithm over the integers -/
example (f : Nat) (s s' : LState 3) (o : Out Unit) (hs : Ranged Γ s.st)
    (h0 : ¬ (s.st 0 = -2147483648 ∧ s.st 1 = -2147483648)) (h : gcd.exec Γ f s = some (o, s')) :
    NoUb o ∧ Ranged Γ s'.st ∧ (o = .ret () → s'.caught = s.caught → iexec f gcd (abst s) = some (some (abst s'))) :=
  C88_clean careful Γ good gcd proper f s s' o hs h (gcd_clean f s hs h0)

example : (gcd.exec Γ 20 ⟨fun i => if i = 0 then -2310 else 546, ⟨[], false, false⟩, [], 0⟩).map (fun r => (r.1, r.2.st 0)) =
    some (.ret (), 42) := by decide +kernel

/-- both numbers are `INT_MIN` -/
def bad : LState 3 := ⟨fun _ => -2147483648, ⟨[], false, false⟩, [], 0⟩

theorem bad_write (i : Fin 3) : bad.write i (-2147483648) = bad := by
  unfold LState.write bad
  congr 1
  funext j
  split <;> rfl

theorem bad_step (g : Nat) : step.exec Γ (g + 3) bad = some (.ret (), bad) := by
  have e1 : assignVal Γ bad.st 2 (.bin (.ar .mod) (.var 0) (.var 1)) = .ret (-2147483648) := by decide +kernel
  have e2 : assignVal Γ bad.st 0 (.var 1) = .ret (-2147483648) := by decide +kernel
  have e3 : assignVal Γ bad.st 1 (.var 2) = .ret (-2147483648) := by decide +kernel
  simp only [step, LStmt.exec, e1, storing, bad_write, e2, e3]

/-- The greatest common divisor of `INT_MIN` and `INT_MIN`: over the integers the algorithm ends after one round; with `safe<int>` it
never ends, since `INT_MIN % INT_MIN` is `INT_MIN`. -/
theorem forever : ∀ f, gcd.exec Γ f bad = none
  | 0 => rfl
  | f + 1 => by
    have e : LCond.eval Γ bad.st (.cmp .ne (.var 1) (.const i32 0) : LCond names 3) = .ret true := by decide +kernel
    unfold gcd
    simp only [LStmt.exec, e]
    match f with
    | 0 => rfl
    | 1 => rfl
    | 2 =>
      have e1 : assignVal Γ bad.st 2 (.bin (.ar .mod) (.var 0) (.var 1)) = .ret (-2147483648) := by decide +kernel
      simp only [step, LStmt.exec, e1, storing]
    | g + 3 =>
      rw [bad_step g]
      exact forever (g + 3)

theorem ends : (iexec 20 gcd (abst bad)).map (fun r => r.map fun s => s.st 0) = some (some (-2147483648)) := by decide +kernel

/-- the remainder is to blame -/
example : ∃ ev ∈ sEvents Γ 20 gcd bad, ¬ ev.Clean :=
  C88_endless careful Γ good gcd proper ⟨trivial, trivial, trivial⟩ 20 bad (fun _ => show (Opd.ofSafe i32).Has (-2147483648) by decide +kernel) (forever 20)
    fun h => by have := ends; rw [h] at this; cases this

/-- and one round has the wrong result -/
example : ∃ ev ∈ sEvents Γ 3 step bad, ¬ ev.Clean := by
  refine C88_blame careful Γ good step proper.2 3 bad bad _ (fun _ => show (Opd.ofSafe i32).Has (-2147483648) by decide +kernel) (bad_step 0)
    (Or.inr (Or.inr ⟨rfl, rfl, fun h => ?_⟩))
  rw [istep 0 (abst bad) (by decide +kernel)] at h
  have := congrArg (fun r => IState.st r 1) (Option.some.inj (Option.some.inj h))
  exact absurd this (by decide +kernel)

-- the exact conditions, and wrong operations: the remainder above; a bitwise operation with a result outside of the bounds of its type
example : ¬ OpClean .native looseException (Opd.ofSafe i32) (Opd.ofBuiltin i32) (.bit .bor) (-1) 0 := by
  rw [← (C88_always .native trivial looseException (Or.inl rfl) (Opd.ofSafe i32) (Opd.ofBuiltin i32) (by decide +kernel) (by decide +kernel)
    (-1) 0 (by decide +kernel) (by decide +kernel)).2 .bor]
  rintro (⟨S, v, h1, _, h3, h4, _⟩ | ⟨e, h⟩ | h)
  · have e1 : bitwiseTy .native .bor (Opd.ofSafe i32) (Opd.ofBuiltin i32) = .ret (Opd.range i32 0 2147483647) := by decide +kernel
    have e2 : bitwise .native .bor (Opd.ofSafe i32) (Opd.ofBuiltin i32) (-1) 0 = .ret (-1) := by decide +kernel
    obtain rfl := Out.ret.inj (e1.symm.trans h1)
    obtain rfl := Out.ret.inj (e2.symm.trans h4)
    exact absurd h3 (by decide +kernel)
  · have e2 : bitwise .native .bor (Opd.ofSafe i32) (Opd.ofBuiltin i32) (-1) 0 = .ret (-1) := by decide +kernel
    cases e2.symm.trans h
  · have e2 : bitwise .native .bor (Opd.ofSafe i32) (Opd.ofBuiltin i32) (-1) 0 = .ret (-1) := by decide +kernel
    cases e2.symm.trans h

-- a policy that traps: `x % y` for a `y` from -5 to -1 is accepted; it is undefined, and not clean, for the minimum and -1, else clean
example : ¬ OpClean .native strictTrap (Opd.ofSafe i32) (Opd.range i32 (-5) (-1)) (.ar .mod) (-2147483648) (-1) ∧
    OpClean .native strictTrap (Opd.ofSafe i32) (Opd.range i32 (-5) (-1)) (.ar .mod) (-2147483648) (-3) := by
  have key := fun u hu => C88_firm .native trivial strictTrap (Or.inr rfl) (Or.inr rfl) (.ar .mod) (Opd.ofSafe i32)
    (Opd.range i32 (-5) (-1)) (by decide +kernel) (by decide +kernel) (-2147483648) u (by decide +kernel) hu
  constructor
  · intro h
    have e : (Op2.ar .mod).safeVal .native strictTrap (Opd.ofSafe i32) (Opd.range i32 (-5) (-1)) (-2147483648) (-1) = .fault .ub := by
      decide +kernel
    rcases (key (-1) (by decide +kernel)).2 (Or.inl h) with ⟨_, _, _, _, _, h, _⟩ | ⟨_, h⟩ | h <;> cases e.symm.trans h
  · have e : (Op2.ar .mod).safeVal .native strictTrap (Opd.ofSafe i32) (Opd.range i32 (-5) (-1)) (-2147483648) (-3) = .ret (-2) := by
      decide +kernel
    refine ((key (-3) (by decide +kernel)).1 (Or.inl ⟨Opd.range i32 (-3) 2, -2, by decide +kernel, ?_, ?_, e,
      by decide +kernel⟩)).resolve_right fun h => (nomatch e.symm.trans h)
    all_goals decide +kernel

end EuclidInt
end Verif.Props
