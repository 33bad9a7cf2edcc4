import Verif.Proofs.Lang

/-!
Properties C57 (common policies), C58 (expressions of all operators), C59 (whole programs: range invariant, absence of
undefined behaviour) and C60 (programs compute what they compute over the integers).
-/

namespace Verif.Props
open Spec Lang

/-! ### C57 -/

/-- Two types have a common policy `a` exactly if one of them has it and the other has the same one or none. -/
theorem C57_common {α : Type} [DecidableEq α] (t u : Option α) (a : α) :
    common t u = .ret a ↔ (t = some a ∨ u = some a) ∧ (t = none ∨ t = some a) ∧ (u = none ∨ u = some a) := by
  cases t <;> cases u <;> simp [common]
  split <;> rename_i h <;> simp
  · subst h; simp
  · intro _ g1 g2; exact h (g1.trans g2.symm)

/-- Without a common policy the program does not compile; the common policy does not depend on the order. -/
theorem C57_common_cases {α : Type} [DecidableEq α] (t u : Option α) :
    ((∃ a, common t u = .ret a) ∨ common t u = .fault .illFormed) ∧ common t u = common u t := by
  cases t <;> cases u <;> simp [common]
  rename_i a b
  by_cases h : a = b
  · subst h; simp
  · have : b ≠ a := fun g => h g.symm
    simp [h, this]

section
variable [Arch]

/-- the promotion policy `q` is that of a variable, literal or cast in the expression (operands of casts do not count) -/
def PromotionIn {N : Names} {n : Nat} (Γ : Fin n → PTy N) (q : N.P) : LExpr N n → Prop
  | .var i => (Γ i).pr = some q
  | .const _ _ => False
  | .lit L => L.pr = some q
  | .bin _ a b => PromotionIn Γ q a ∨ PromotionIn Γ q b
  | .neg a => PromotionIn Γ q a
  | .pos a => PromotionIn Γ q a
  | .cast S _ => S.pr = some q

/-- likewise for exception policies -/
def ExceptionIn {N : Names} {n : Nat} (Γ : Fin n → PTy N) (q : N.E) : LExpr N n → Prop
  | .var i => (Γ i).ex = some q
  | .const _ _ => False
  | .lit L => L.ex = some q
  | .bin _ a b => ExceptionIn Γ q a ∨ ExceptionIn Γ q b
  | .neg a => ExceptionIn Γ q a
  | .pos a => ExceptionIn Γ q a
  | .cast S _ => S.ex = some q

/-- the types written in the expression are well-formed -/
def TypesIn {N : Names} {n : Nat} : LExpr N n → Prop
  | .var _ => True
  | .const _ _ => True
  | .lit L => PTy.Wf L
  | .bin _ a b => TypesIn a ∧ TypesIn b
  | .neg a => TypesIn a
  | .pos a => TypesIn a
  | .cast S _ => PTy.Wf S

private theorem builtin_pol {N : Names} {T : PTy N} (h : T.opd.kind = .builtin → T.pr = none ∧ T.ex = none)
    (hs : T.isSafe = false) : T.pr = none ∧ T.ex = none := h (by unfold PTy.isSafe at hs; simpa using hs)

theorem isSafe_kind {N : Names} {T : PTy N} (h : T.isSafe = true) : T.opd.kind ≠ .builtin := by
  unfold PTy.isSafe at h; simpa using h

private theorem bin_pol {N : Names} {o : Op2} {T U S : PTy N}
    (hT : T.opd.kind = .builtin → T.pr = none ∧ T.ex = none) (hU : U.opd.kind = .builtin → U.pr = none ∧ U.ex = none)
    (h : pBinTy o T U = .ret S) :
    (S.opd.kind = .builtin → S.pr = none ∧ S.ex = none) ∧
    (∀ q, (T.pr = some q ∨ U.pr = some q) ↔ S.pr = some q) ∧ (∀ q, (T.ex = some q ∨ U.ex = some q) ↔ S.ex = some q) := by
  by_cases hs : T.isSafe = true ∨ U.isSafe = true
  · have hk := isSafe_kind (pBinTy_safe hs h)
    refine ⟨fun h => absurd h hk, ?_⟩
    unfold pBinTy at h
    rw [isSafe_or hs, if_pos rfl] at h
    rcases common_st T.pr U.pr with ⟨q, eq⟩ | eq
    · rcases common_st T.ex U.ex with ⟨e, ee⟩ | ee
      · rw [eq, ee] at h
        simp only [ret_bind] at h
        rcases safeTy_st (N.prom q) o T.opd U.opd with ⟨R, er⟩ | er
        · rw [er, ret_bind] at h
          cases h
          have key : ∀ {α : Type} [DecidableEq α] {t u : Option α} {a : α}, common t u = .ret a →
              ∀ b, (t = some b ∨ u = some b) ↔ some a = some b := by
            intro α _ t u a hc b
            obtain ⟨h1, h2, h3⟩ := (C57_common t u a).mp hc
            constructor
            · rintro (rfl | rfl)
              · rcases h2 with h | h
                · cases h
                · exact h.symm
              · rcases h3 with h | h
                · cases h
                · exact h.symm
            · intro h; cases h; exact h1
          exact ⟨key eq, key ee⟩
        · rw [er] at h; cases h
      · rw [eq, ee] at h; cases h
    · rw [eq] at h; cases h
  · have h1 : T.isSafe = false := by by_contra g; exact hs (Or.inl (by simpa using g))
    have h2 : U.isSafe = false := by by_contra g; exact hs (Or.inr (by simpa using g))
    unfold pBinTy at h
    rw [h1, h2] at h
    simp only [Bool.or_self, Bool.false_eq_true, if_false] at h
    cases h
    have b1 := builtin_pol hT h1
    have b2 := builtin_pol hU h2
    refine ⟨fun _ => ⟨rfl, rfl⟩, fun q => ?_, fun q => ?_⟩
    · rw [b1.1, b2.1]; simp [PTy.builtin]
    · rw [b1.2, b2.2]; simp [PTy.builtin]

private theorem tree_pol {N : Names} {n : Nat} {Γ : Fin n → PTy N} (hΓ : GoodVars Γ) :
    ∀ (e : LExpr N n) (T : PTy N), TypesIn e → e.ty Γ = .ret T →
      (T.opd.kind = .builtin → T.pr = none ∧ T.ex = none) ∧
      (∀ q, PromotionIn Γ q e ↔ T.pr = some q) ∧ (∀ q, ExceptionIn Γ q e ↔ T.ex = some q)
  | .var i, T, _, h => by cases h; exact ⟨(hΓ i).1.2.1, fun _ => Iff.rfl, fun _ => Iff.rfl⟩
  | .const B k, T, _, h => by cases h; exact ⟨fun _ => ⟨rfl, rfl⟩, fun _ => by simp [PromotionIn, PTy.builtin],
      fun _ => by simp [ExceptionIn, PTy.builtin]⟩
  | .lit L, T, w, h => by cases h; exact ⟨w.2.1, fun _ => Iff.rfl, fun _ => Iff.rfl⟩
  | .cast S a, T, w, h => by cases h; exact ⟨w.2.1, fun _ => Iff.rfl, fun _ => Iff.rfl⟩
  | .pos a, T, w, h => by
    simp only [LExpr.ty] at h
    rcases ty_st Γ a with ⟨A, ea⟩ | ea
    · rw [ea, ret_bind] at h
      cases h
      obtain ⟨h1, h2, h3⟩ := tree_pol hΓ a A w ea
      unfold posTyOf
      split
      · rename_i hk
        refine ⟨fun _ => ⟨rfl, rfl⟩, fun q => ?_, fun q => ?_⟩
        · rw [show (PromotionIn Γ q (.pos a) ↔ _) = (PromotionIn Γ q a ↔ _) from rfl, h2, (h1 hk).1]; simp [PTy.builtin]
        · rw [show (ExceptionIn Γ q (.pos a) ↔ _) = (ExceptionIn Γ q a ↔ _) from rfl, h3, (h1 hk).2]; simp [PTy.builtin]
      · exact ⟨h1, h2, h3⟩
    · rw [ea] at h; cases h
  | .neg a, T, w, h => by
    simp only [LExpr.ty] at h
    rcases ty_st Γ a with ⟨A, ea⟩ | ea
    · rw [ea, ret_bind] at h
      obtain ⟨h1, h2, h3⟩ := tree_pol hΓ a A w ea
      unfold negTyOf at h
      split at h
      · rename_i hk
        cases h
        refine ⟨fun _ => ⟨rfl, rfl⟩, fun q => ?_, fun q => ?_⟩
        · rw [show (PromotionIn Γ q (.neg a) ↔ _) = (PromotionIn Γ q a ↔ _) from rfl, h2, (h1 hk).1]; simp [PTy.builtin]
        · rw [show (ExceptionIn Γ q (.neg a) ↔ _) = (ExceptionIn Γ q a ↔ _) from rfl, h3, (h1 hk).2]; simp [PTy.builtin]
      · obtain ⟨g1, g2, g3⟩ := bin_pol (fun _ => ⟨rfl, rfl⟩) h1 h
        refine ⟨g1, fun q => ?_, fun q => ?_⟩
        · rw [← g2 q, show (PromotionIn Γ q (.neg a)) = PromotionIn Γ q a from rfl, h2]; simp [PTy.builtin]
        · rw [← g3 q, show (ExceptionIn Γ q (.neg a)) = ExceptionIn Γ q a from rfl, h3]; simp [PTy.builtin]
      · rename_i b hk
        rcases Static.static (do
          let c ← minus A.opd.base make A.opd.lo
          if c.exception then .fault .illFormed
          else do
            let v ← cNeg A.opd.base A.opd.lo
            if A.opd.base.In v then .ret (⟨A.opd.base, v, v, A.opd.kind⟩ : Opd) else .fault .illFormed) with ⟨L, g⟩ | g
        · have g : litMinus A.opd = .ret L := g
          have gk : L.kind = A.opd.kind := by
            unfold litMinus at g
            rcases hm : minus A.opd.base make A.opd.lo with c | _ | _
            · rw [hm, ret_bind] at g
              split at g
              · cases g
              · rcases hn : cNeg A.opd.base A.opd.lo with v | _ | _
                · rw [hn, ret_bind] at g
                  split at g
                  · cases g; rfl
                  · cases g
                · rw [hn] at g; cases g
                · rw [hn] at g; cases g
            · rw [hm] at g; cases g
            · rw [hm] at g; cases g
          rw [g, ret_bind] at h
          cases h
          refine ⟨fun hb => ?_, h2, h3⟩
          dsimp only at hb
          rw [gk, hk] at hb; cases hb
        · have g : litMinus A.opd = .fault .illFormed := g
          rw [g] at h; cases h
    · rw [ea] at h; cases h
  | .bin o a b, T, w, h => by
    simp only [LExpr.ty] at h
    rcases ty_st Γ a with ⟨A, ea⟩ | ea
    · rcases ty_st Γ b with ⟨B, eb⟩ | eb
      · rw [ea, eb] at h
        simp only [ret_bind] at h
        obtain ⟨h1, h2, h3⟩ := tree_pol hΓ a A w.1 ea
        obtain ⟨k1, k2, k3⟩ := tree_pol hΓ b B w.2 eb
        obtain ⟨g1, g2, g3⟩ := bin_pol h1 k1 h
        refine ⟨g1, fun q => ?_, fun q => ?_⟩
        · rw [← g2 q, ← h2 q, ← k2 q]; rfl
        · rw [← g3 q, ← h3 q, ← k3 q]; rfl
      · rw [ea, eb] at h; cases h
    · rw [ea] at h; cases h

/-- The type of a whole expression carries exactly the policies that occur in it, however deep. -/
theorem C57_tree {N : Names} {n : Nat} (Γ : Fin n → PTy N) (hΓ : GoodVars Γ) (e : LExpr N n) (w : TypesIn e) (T : PTy N)
    (h : e.ty Γ = .ret T) :
    (∀ q, PromotionIn Γ q e ↔ T.pr = some q) ∧ (∀ q, ExceptionIn Γ q e ↔ T.ex = some q) :=
  (tree_pol hΓ e T w h).2

/-- An expression with two different promotion policies, or two different exception policies, does not compile. -/
theorem C57_mixed {N : Names} {n : Nat} (Γ : Fin n → PTy N) (hΓ : GoodVars Γ) (e : LExpr N n) (w : TypesIn e)
    (h : (∃ q q', q ≠ q' ∧ PromotionIn Γ q e ∧ PromotionIn Γ q' e) ∨ (∃ q q', q ≠ q' ∧ ExceptionIn Γ q e ∧ ExceptionIn Γ q' e)) :
    e.ty Γ = .fault .illFormed := by
  rcases ty_st Γ e with ⟨T, et⟩ | et
  · obtain ⟨h1, h2⟩ := C57_tree Γ hΓ e w T et
    rcases h with ⟨q, q', hn, a, b⟩ | ⟨q, q', hn, a, b⟩
    · rw [h1 q] at a; rw [h1 q', a] at b
      exact absurd (Option.some.inj b) hn
    · rw [h2 q] at a; rw [h2 q', a] at b
      exact absurd (Option.some.inj b) hn
  · exact et

/-! ### C58 -/

/-- Every covered expression (any operators, casts, literals, any depth, mixed safe and built-in operands) has its integer
value and that value lies within the bounds of its type; or an exception is thrown; or the program does not compile. -/
theorem C58_exact_partial {N : Names} (hN : Careful N) {n : Nat} (Γ : Fin n → PTy N) (hΓ : GoodVars Γ) (s : Fin n → Int)
    (hs : Ranged Γ s) (e : LExpr N n) (he : ECovered Γ e) :
    (∃ T v, e.eval Γ s = .ret v ∧ ival s e = some v ∧ e.ty Γ = .ret T ∧ T.opd.Has v) ∨
    (∃ x, e.eval Γ s = .thrown x) ∨ e.eval Γ s = .fault .illFormed := by
  rcases eval_good hN hΓ hs e he with ⟨T, v, h1, _, h3, h4, h5⟩ | h | h
  · exact Or.inl ⟨T, v, h3, h5, h1, h4⟩
  · exact Or.inr (Or.inl h)
  · exact Or.inr (Or.inr h)

/-- Conditions: the right answer, or an exception, or rejected. -/
theorem C58_cond_partial {N : Names} (hN : Careful N) {n : Nat} (Γ : Fin n → PTy N) (hΓ : GoodVars Γ) (s : Fin n → Int)
    (hs : Ranged Γ s) (c : LCond N n) (hc : CCovered Γ c) :
    (∃ b, c.eval Γ s = .ret b ∧ icond s c = some b) ∨ (∃ x, c.eval Γ s = .thrown x) ∨ c.eval Γ s = .fault .illFormed :=
  cond_good hN hΓ hs c hc

/-! ### C59, C60 -/

theorem ranged_write {N : Names} {n : Nat} {Γ : Fin n → PTy N} {s : LState n} (hs : Ranged Γ s.st) {i : Fin n} {v : Int}
    (hv : (Γ i).opd.Has v) : Ranged Γ (s.write i v).st := by
  intro j
  show (Γ j).opd.Has (if j = i then v else s.st j)
  split
  · rename_i h; subst h; exact hv
  · exact hs j

/-- what an execution step guarantees -/
def Fine {N : Names} {n : Nat} (Γ : Fin n → PTy N) (r : Option (Option (IState n))) (s : LState n) (o : Out Unit)
    (s' : LState n) : Prop :=
  (o = .ret () ∨ (∃ x, o = .thrown x) ∨ o = .fault .illFormed) ∧ Ranged Γ s'.st ∧ s.caught ≤ s'.caught ∧
  (o = .ret () → s'.caught = s.caught → r = some (some (abst s')))

private theorem storing_fine {N : Names} {n : Nat} {Γ : Fin n → PTy N} {s : LState n} (hs : Ranged Γ s.st) {i : Fin n}
    {x : Out Int} {m : Option (IState n)}
    (h : (∃ v, x = .ret v ∧ (Γ i).opd.Has v ∧ m = some ((abst s).write i v)) ∨ (∃ e, x = .thrown e) ∨ x = .fault .illFormed) :
    Fine Γ (some m) s (storing s i x).1 (storing s i x).2 := by
  rcases h with ⟨v, rfl, h1, rfl⟩ | ⟨e, rfl⟩ | rfl
  · exact ⟨Or.inl rfl, ranged_write hs h1, le_refl _, fun _ _ => rfl⟩
  · exact ⟨Or.inr (Or.inl ⟨e, rfl⟩), hs, le_refl _, fun h => by cases h⟩
  · exact ⟨Or.inr (Or.inr rfl), hs, le_refl _, fun h => by cases h⟩

/-- what an execution of a covered program guarantees (lemma for C59, C60, C71) -/
theorem exec_fine {N : Names} (hN : Careful N) {n : Nat} {Γ : Fin n → PTy N} (hΓ : GoodVars Γ) :
    ∀ (f : Nat) (p : LStmt N n) (s : LState n) (o : Out Unit) (s' : LState n), SCovered Γ p → Ranged Γ s.st →
      p.exec Γ f s = some (o, s') → Fine Γ (iexec f p (abst s)) s o s'
  | 0, p, s, o, s', _, _, h => by cases p <;> cases h
  | f + 1, .skip, s, o, s', _, hs, h => by
    cases h
    exact ⟨Or.inl rfl, hs, le_refl _, fun _ _ => rfl⟩
  | f + 1, .assign i e, s, o, s', hc, hs, h => by
    simp only [LStmt.exec, Option.some.injEq] at h
    rw [show o = (storing s i (assignVal Γ s.st i e)).1 by rw [h], show s' = (storing s i (assignVal Γ s.st i e)).2 by rw [h]]
    refine storing_fine hs ?_
    rcases assign_good hN hΓ hs (i := i) hc.1 hc.2 with ⟨v, h1, h2, h3⟩ | h | h
    · refine Or.inl ⟨v, h1, h2, ?_⟩
      show (ival s.st e).map _ = _
      rw [h3]; rfl
    · exact Or.inr (Or.inl h)
    · exact Or.inr (Or.inr h)
  | f + 1, .opAssign op i e, s, o, s', hc, hs, h => by
    simp only [LStmt.exec, Option.some.injEq] at h
    rw [show o = (storing s i (opAssignVal Γ s.st op i e)).1 by rw [h],
      show s' = (storing s i (opAssignVal Γ s.st op i e)).2 by rw [h]]
    refine storing_fine hs ?_
    rcases opAssign_good hN hΓ hs (i := i) hc with ⟨v, h1, h2, h3⟩ | h | h
    · refine Or.inl ⟨v, h1, h2, ?_⟩
      rcases hv : ival s.st e with _ | w
      · rw [hv] at h3; cases h3
      · rw [hv] at h3
        have h3 : imath op (s.st i) w = some v := h3
        show (ival s.st e).bind (fun w => (imath op (s.st i) w).bind fun v => some ((abst s).write i v)) = _
        rw [hv]
        show (imath op (s.st i) w).bind _ = _
        rw [h3]; rfl
    · exact Or.inr (Or.inl h)
    · exact Or.inr (Or.inr h)
  | f + 1, .inc i, s, o, s', hc, hs, h => by
    simp only [LStmt.exec, Option.some.injEq] at h
    rw [show o = (storing s i (opAssignVal Γ s.st (.ar .add) i (.const tInt 1))).1 by rw [h],
      show s' = (storing s i (opAssignVal Γ s.st (.ar .add) i (.const tInt 1))).2 by rw [h]]
    refine storing_fine hs ?_
    rcases opAssign_good hN hΓ hs (i := i) (inc_covered hc (Or.inl rfl)) with ⟨v, h1, h2, h3⟩ | h | h
    · refine Or.inl ⟨v, h1, h2, ?_⟩
      have h3 : some (s.st i + 1) = some v := h3
      cases h3; rfl
    · exact Or.inr (Or.inl h)
    · exact Or.inr (Or.inr h)
  | f + 1, .dec i, s, o, s', hc, hs, h => by
    simp only [LStmt.exec, Option.some.injEq] at h
    rw [show o = (storing s i (opAssignVal Γ s.st (.ar .sub) i (.const tInt 1))).1 by rw [h],
      show s' = (storing s i (opAssignVal Γ s.st (.ar .sub) i (.const tInt 1))).2 by rw [h]]
    refine storing_fine hs ?_
    rcases opAssign_good hN hΓ hs (i := i) (inc_covered hc (Or.inr rfl)) with ⟨v, h1, h2, h3⟩ | h | h
    · refine Or.inl ⟨v, h1, h2, ?_⟩
      have h3 : some (s.st i - 1) = some v := h3
      cases h3; rfl
    · exact Or.inr (Or.inl h)
    · exact Or.inr (Or.inr h)
  | f + 1, .input i, s, o, s', hc, hs, h => by
    obtain ⟨c1, c2, c3, c4⟩ := hc
    simp only [LStmt.exec, Option.some.injEq] at h
    have hk := isSafe_kind c1
    have hsafe : (Γ i).opd.kind = .safe := (hΓ i).2.resolve_left hk
    have hp := ep_careful hN ((hΓ i).1.2.2.1 hsafe).2
    have hT := (hΓ i).1.1
    have e : inputStep (Γ i) (s.st i) s.inp = Verif.input (Γ i).ep (Γ i).opd (s.st i) s.inp := by
      unfold inputStep; rw [c1, if_pos rfl]
    rw [e] at h
    obtain ⟨hr, hi⟩ := input_cases hp hT c2 (s.st i) s.inp ⟨c3, c4⟩ (hs i)
    have ho : o = (Verif.input (Γ i).ep (Γ i).opd (s.st i) s.inp).1 := by rw [Prod.mk.injEq] at h; exact h.1.symm
    have hs' := (Prod.mk.inj h).2
    refine ⟨?_, ?_, ?_, ?_⟩
    · rw [ho]
      rcases hi with ⟨_, _, _, _, _, hi⟩ | hi | hi
      · rw [hi]; exact Or.inl rfl
      · exact Or.inr (Or.inl hi)
      · exact Or.inr (Or.inr hi)
    · rw [← hs']; exact ranged_write hs hr
    · rw [← hs']; exact le_refl _
    · intro h0 _
      rw [ho] at h0
      rcases hi with ⟨neg, k, rest, n1, n2, n3⟩ | ⟨x, hi⟩ | hi
      · show some ((iread s.inp.buf).map _) = _
        rw [iread_number n1, ← hs', n3]; rfl
      · rw [hi] at h0; cases h0
      · rw [hi] at h0; cases h0
  | f + 1, .output e, s, o, s', hc, hs, h => by
    simp only [LStmt.exec] at h
    have ka := eval_good hN hΓ hs e hc.1
    rcases ty_st Γ e with ⟨A, ea⟩ | ea
    · rw [ea, ret_bind] at h
      rcases ka with ⟨A', x, ea', wA, vx, hx, mx⟩ | ⟨x, ex⟩ | ex
      · rw [ea] at ea'; obtain rfl := Out.ret.inj ea'
        rw [vx, ret_bind] at h
        have : outputStep A x = .ret (printInt x) := output_good wA (hc.2 A ea) hx
        rw [this] at h
        cases h
        refine ⟨Or.inl rfl, hs, le_refl _, fun _ _ => ?_⟩
        show some ((ival s.st e).map _) = _
        rw [mx]; rfl
      · rw [ex] at h; cases h
        exact ⟨Or.inr (Or.inl ⟨x, rfl⟩), hs, le_refl _, fun h => by cases h⟩
      · rw [ex] at h; cases h
        exact ⟨Or.inr (Or.inr rfl), hs, le_refl _, fun h => by cases h⟩
    · rw [ea] at h; cases h
      exact ⟨Or.inr (Or.inr rfl), hs, le_refl _, fun h => by cases h⟩
  | f + 1, .seq a b, s, o, s', hc, hs, h => by
    simp only [LStmt.exec] at h
    simp only [iexec]
    rcases ha : a.exec Γ f s with _ | ⟨o1, s1⟩
    · rw [ha] at h; cases h
    · rw [ha] at h
      obtain ⟨k1, k2, k3, k4⟩ := exec_fine hN hΓ f a s o1 s1 hc.1 hs ha
      rcases k1 with rfl | ⟨x, rfl⟩ | rfl
      · dsimp only at h
        obtain ⟨g1, g2, g3, g4⟩ := exec_fine hN hΓ f b s1 o s' hc.2 k2 h
        refine ⟨g1, g2, le_trans k3 g3, fun h1 h2 => ?_⟩
        rw [k4 rfl (by omega)]
        exact g4 h1 (by omega)
      · cases h; exact ⟨Or.inr (Or.inl ⟨x, rfl⟩), k2, k3, fun h => by cases h⟩
      · cases h; exact ⟨Or.inr (Or.inr rfl), k2, k3, fun h => by cases h⟩
  | f + 1, .ite c a b, s, o, s', hc, hs, h => by
    simp only [LStmt.exec] at h
    simp only [iexec]
    rcases cond_good hN hΓ hs c hc.1 with ⟨x, h1, h2⟩ | ⟨x, h1⟩ | h1
    · rw [h1] at h
      rw [show (abst s).st = s.st from rfl, h2]
      cases x
      · exact exec_fine hN hΓ f b s o s' hc.2.2 hs h
      · exact exec_fine hN hΓ f a s o s' hc.2.1 hs h
    · rw [h1] at h; cases h
      exact ⟨Or.inr (Or.inl ⟨x, rfl⟩), hs, le_refl _, fun h => by cases h⟩
    · rw [h1] at h; cases h
      exact ⟨Or.inr (Or.inr rfl), hs, le_refl _, fun h => by cases h⟩
  | f + 1, .while c a, s, o, s', hc, hs, h => by
    simp only [LStmt.exec] at h
    simp only [iexec]
    rcases cond_good hN hΓ hs c hc.1 with ⟨x, h1, h2⟩ | ⟨x, h1⟩ | h1
    · rw [h1] at h
      rw [show (abst s).st = s.st from rfl, h2]
      cases x
      · cases h; exact ⟨Or.inl rfl, hs, le_refl _, fun _ _ => rfl⟩
      · dsimp only at h ⊢
        rcases ha : a.exec Γ f s with _ | ⟨o1, s1⟩
        · rw [ha] at h; cases h
        · rw [ha] at h
          obtain ⟨k1, k2, k3, k4⟩ := exec_fine hN hΓ f a s o1 s1 hc.2 hs ha
          rcases k1 with rfl | ⟨x, rfl⟩ | rfl
          · dsimp only at h
            obtain ⟨g1, g2, g3, g4⟩ := exec_fine hN hΓ f (.while c a) s1 o s' hc k2 h
            refine ⟨g1, g2, le_trans k3 g3, fun h1 h2 => ?_⟩
            rw [k4 rfl (by omega)]
            exact g4 h1 (by omega)
          · cases h; exact ⟨Or.inr (Or.inl ⟨x, rfl⟩), k2, k3, fun h => by cases h⟩
          · cases h; exact ⟨Or.inr (Or.inr rfl), k2, k3, fun h => by cases h⟩
    · rw [h1] at h; cases h
      exact ⟨Or.inr (Or.inl ⟨x, rfl⟩), hs, le_refl _, fun h => by cases h⟩
    · rw [h1] at h; cases h
      exact ⟨Or.inr (Or.inr rfl), hs, le_refl _, fun h => by cases h⟩
  | f + 1, .tryCatch a b, s, o, s', hc, hs, h => by
    simp only [LStmt.exec] at h
    simp only [iexec]
    rcases ha : a.exec Γ f s with _ | ⟨o1, s1⟩
    · rw [ha] at h; cases h
    · rw [ha] at h
      obtain ⟨k1, k2, k3, k4⟩ := exec_fine hN hΓ f a s o1 s1 hc.1 hs ha
      rcases k1 with rfl | ⟨x, rfl⟩ | rfl
      · cases h; exact ⟨Or.inl rfl, k2, k3, k4⟩
      · dsimp only at h
        obtain ⟨g1, g2, g3, g4⟩ := exec_fine hN hΓ f b { s1 with caught := s1.caught + 1 } o s' hc.2 k2 h
        have g3 : s1.caught + 1 ≤ s'.caught := g3
        exact ⟨g1, g2, by omega, fun _ h => absurd h (by omega)⟩
      · cases h; exact ⟨Or.inr (Or.inr rfl), k2, k3, fun h => by cases h⟩

/-- Whole programs with loops, input, output and exception handlers, policies that throw or trap (they may differ between variables):
no execution, of any length, from any state within the ranges, with any input, has undefined behaviour or fails an
assertion, and the variables are within their ranges at the end, also when the program ends by an exception. -/
theorem C59_safe_partial {N : Names} (hN : Careful N) {n : Nat} (Γ : Fin n → PTy N) (hΓ : GoodVars Γ) (p : LStmt N n)
    (hp : SCovered Γ p) (f : Nat) (s s' : LState n) (o : Out Unit) (hs : Ranged Γ s.st) (h : p.exec Γ f s = some (o, s')) :
    NoUb o ∧ Ranged Γ s'.st := by
  obtain ⟨h1, h2, _⟩ := exec_fine hN hΓ f p s o s' hp hs h
  refine ⟨?_, h2⟩
  rcases h1 with rfl | ⟨x, rfl⟩ | rfl <;> exact ⟨(by intro h; cases h), (by intro h; cases h)⟩

/-- The bound `f` on the nested steps only decides whether the execution is finished, not its result. -/
theorem C59_bound {N : Names} {n : Nat} (Γ : Fin n → PTy N) :
    ∀ (f : Nat) (p : LStmt N n) (s : LState n) (r : Out Unit × LState n), p.exec Γ f s = some r →
      ∀ g, f ≤ g → p.exec Γ g s = some r
  | 0, p, s, r, h, _, _ => by cases p <;> cases h
  | f + 1, p, s, r, h, 0, hg => by omega
  | f + 1, p, s, r, h, g + 1, hg => by
    have hg : f ≤ g := by omega
    cases p with
    | seq a b =>
      simp only [LStmt.exec] at h ⊢
      rcases ha : a.exec Γ f s with _ | ⟨o1, s1⟩
      · rw [ha] at h; cases h
      · rw [C59_bound Γ f a s _ ha g hg]
        rw [ha] at h
        cases o1 with
        | ret _ => exact C59_bound Γ f b s1 r h g hg
        | thrown x => exact h
        | fault k => exact h
    | ite c a b =>
      simp only [LStmt.exec] at h ⊢
      cases hc : c.eval Γ s.st with
      | ret x =>
        rw [hc] at h
        cases x
        · exact C59_bound Γ f b s r h g hg
        · exact C59_bound Γ f a s r h g hg
      | thrown x => rw [hc] at h; exact h
      | fault k => rw [hc] at h; exact h
    | «while» c a =>
      simp only [LStmt.exec] at h ⊢
      cases hc : c.eval Γ s.st with
      | ret x =>
        rw [hc] at h
        cases x
        · exact h
        · dsimp only at h ⊢
          rcases ha : a.exec Γ f s with _ | ⟨o1, s1⟩
          · rw [ha] at h; cases h
          · rw [C59_bound Γ f a s _ ha g hg]
            rw [ha] at h
            cases o1 with
            | ret _ => exact C59_bound Γ f (.while c a) s1 r h g hg
            | thrown x => exact h
            | fault k => exact h
      | thrown x => rw [hc] at h; exact h
      | fault k => rw [hc] at h; exact h
    | tryCatch a b =>
      simp only [LStmt.exec] at h ⊢
      rcases ha : a.exec Γ f s with _ | ⟨o1, s1⟩
      · rw [ha] at h; cases h
      · rw [C59_bound Γ f a s _ ha g hg]
        rw [ha] at h
        cases o1 with
        | ret _ => exact h
        | thrown x => exact C59_bound Γ f b _ r h g hg
        | fault k => exact h
    | skip => exact h
    | assign => exact h
    | opAssign => exact h
    | inc => exact h
    | dec => exact h
    | input => exact h
    | output => exact h

omit [Arch] in
/-- The same for the program over the integers. -/
theorem C60_bound {N : Names} {n : Nat} :
    ∀ (f : Nat) (p : LStmt N n) (s : IState n) (r : Option (IState n)), iexec f p s = some r →
      ∀ g, f ≤ g → iexec g p s = some r
  | 0, p, s, r, h, _, _ => by cases p <;> cases h
  | f + 1, p, s, r, h, 0, hg => by omega
  | f + 1, p, s, r, h, g + 1, hg => by
    have hg : f ≤ g := by omega
    cases p with
    | seq a b =>
      simp only [iexec] at h ⊢
      rcases ha : iexec f a s with _ | _ | s1
      · rw [ha] at h; cases h
      · rw [C60_bound f a s _ ha g hg]; rw [ha] at h; exact h
      · rw [C60_bound f a s _ ha g hg]; rw [ha] at h; exact C60_bound f b s1 r h g hg
    | ite c a b =>
      simp only [iexec] at h ⊢
      rcases hc : icond s.st c with _ | x
      · rw [hc] at h; exact h
      · rw [hc] at h
        cases x
        · exact C60_bound f b s r h g hg
        · exact C60_bound f a s r h g hg
    | «while» c a =>
      simp only [iexec] at h ⊢
      rcases hc : icond s.st c with _ | x
      · rw [hc] at h; exact h
      · rw [hc] at h
        cases x
        · exact h
        · dsimp only at h ⊢
          rcases ha : iexec f a s with _ | _ | s1
          · rw [ha] at h; cases h
          · rw [C60_bound f a s _ ha g hg]; rw [ha] at h; exact h
          · rw [C60_bound f a s _ ha g hg]; rw [ha] at h; exact C60_bound f (.while c a) s1 r h g hg
    | tryCatch a b => exact C60_bound f a s r h g hg
    | skip => exact h
    | assign => exact h
    | opAssign => exact h
    | inc => exact h
    | dec => exact h
    | input => exact h
    | output => exact h

/-- An execution that ends without any exception (thrown, or caught on the way) computes what the program computes over the
integers: the same values of all variables, the same output, the same rest of the input. -/
theorem C60_refines_partial {N : Names} (hN : Careful N) {n : Nat} (Γ : Fin n → PTy N) (hΓ : GoodVars Γ) (p : LStmt N n)
    (hp : SCovered Γ p) (f : Nat) (s s' : LState n) (hs : Ranged Γ s.st) (h : p.exec Γ f s = some (.ret (), s'))
    (hc : s'.caught = s.caught) : iexec f p (abst s) = some (some (abst s')) :=
  (exec_fine hN hΓ f p s _ s' hp hs h).2.2.2 rfl hc

/-- Whatever is shown about the program over the integers, for states within the ranges, holds for the program. -/
theorem C60_transfer_partial {N : Names} (hN : Careful N) {n : Nat} (Γ : Fin n → PTy N) (hΓ : GoodVars Γ) (p : LStmt N n)
    (hp : SCovered Γ p) (P Q : IState n → Prop)
    (hI : ∀ f a b, P a → Ranged Γ a.st → iexec f p a = some (some b) → Q b) (f : Nat) (s s' : LState n) (hs : Ranged Γ s.st)
    (hP : P (abst s)) (h : p.exec Γ f s = some (.ret (), s')) (hc : s'.caught = s.caught) : Q (abst s') :=
  hI f (abst s) (abst s') hP hs (C60_refines_partial hN Γ hΓ p hp f s s' hs h hc)

/-- A program that divides by zero, or is otherwise undefined over the integers, never ends without an exception. -/
theorem C60_undefined_partial {N : Names} (hN : Careful N) {n : Nat} (Γ : Fin n → PTy N) (hΓ : GoodVars Γ) (p : LStmt N n)
    (hp : SCovered Γ p) (s : LState n) (hs : Ranged Γ s.st) (hu : ∀ f b, iexec f p (abst s) ≠ some (some b)) (f : Nat)
    (s' : LState n) (h : p.exec Γ f s = some (.ret (), s')) : s.caught < s'.caught := by
  obtain ⟨_, _, h3, h4⟩ := exec_fine hN hΓ f p s _ s' hp hs h
  by_contra hn
  exact hu f _ (h4 rfl (by omega))

omit [Arch] in
/-- The reader of the integer program is what it should be: it reads a numeral if there is one. -/
theorem C60_iread (b : List Char) (k : Int) (rest : List Char) :
    iread b = some (k, rest) ↔ ∃ neg, NumberAt b neg k rest := by
  constructor
  · intro h
    unfold iread at h
    rcases hsc : scan (b.dropWhile isWs) with ⟨neg, ds, r⟩
    rw [hsc] at h
    dsimp only at h
    split at h
    · cases h
    · rename_i hd
      have hd : ds ≠ [] := by rintro rfl; exact hd rfl
      have := scan_number hsc hd
      cases h
      exact ⟨neg, this⟩
  · rintro ⟨neg, h⟩
    exact iread_number h

end

/-! ### a program meeting the hypotheses -/

section
attribute [local instance] lp64

/-- two promotion policies and two exception policies -/
private def demo : Names :=
  ⟨Bool, Bool, inferInstance, inferInstance, fun b => if b then .automatic else .native,
    fun b => if b then strictException else looseException⟩

private theorem demo_careful : Careful demo :=
  ⟨fun (e : Bool) => by cases e <;> exact Or.inl rfl, fun (q : Bool) => by cases q <;> trivial⟩

/-- `safe<int> n`, `safe<int> i`, `safe<short> sum`, all with native promotion and the loose policy -/
private def demoΓ : Fin 3 → PTy demo
  | 0 => ⟨Opd.ofSafe i32, some false, some false⟩
  | 1 => ⟨Opd.ofSafe i32, some false, some false⟩
  | 2 => ⟨Opd.ofSafe i16, some false, some false⟩

private theorem demo_good : GoodVars demoΓ := by
  intro i
  match i with
  | 0 | 1 | 2 => exact ⟨⟨by decide +kernel, nofun, fun _ => ⟨nofun, nofun⟩, nofun⟩, by decide⟩

/-- `is >> n; while (i < n) { ++i; sum += i * i; } os << sum;` -/
private def squares : LStmt demo 3 :=
  .seq (.input 0) (.seq (.while (.cmp .lt (.var 1) (.var 0))
    (.seq (.inc 1) (.opAssign (.ar .add) 2 (.bin (.ar .mul) (.var 1) (.var 1))))) (.output (.var 2)))

private theorem squares_covered : SCovered demoΓ squares := by
  refine ⟨⟨rfl, by decide, rfl, rfl⟩, ⟨⟨trivial, trivial, fun T U h _ => ?_⟩, rfl, ⟨trivial, trivial, fun T U h _ => ?_⟩, fun U _ => ?_⟩,
    trivial, fun T h => ?_⟩
  · cases h; exact Or.inl (Or.inl rfl)
  · cases h; exact ⟨Or.inl rfl, fun _ _ _ _ => trivial⟩
  · exact ⟨Or.inl rfl, fun _ _ _ _ => trivial⟩
  · cases h; exact Or.inl rfl

/-- `if (-1 < 2L) os << +x; os << 'a' + x` for `safe<short> x`: a comparison of built-in types and output of a built-in type -/
private def plain : LStmt demo 3 :=
  .seq (.ite (.cmp .lt (.const i32 (-1)) (.const i64 2)) (.output (.pos (.const i8 65))) .skip) (.output (.bin (.ar .add) (.const i8 97) (.var 2)))

private theorem plain_covered : SCovered demoΓ plain := by
  refine ⟨⟨⟨⟨by decide, by decide⟩, ⟨by decide, by decide⟩, fun T U h g => ?_⟩, ⟨⟨by decide, by decide⟩, fun T h => ?_⟩, trivial⟩,
    ⟨⟨by decide, by decide⟩, trivial, fun T U h g => ?_⟩, fun T h => ?_⟩
  · cases h; cases g
    refine Or.inr fun v hv => ?_
    have e0 : uac i32 i64 = i64 := by decide
    have e1 : i32.min = -2147483648 := by decide
    have e2 : i32.max = 2147483647 := by decide
    have e3 : i64.min = -9223372036854775808 := by decide
    have e4 : i64.max = 9223372036854775807 := by decide
    show (uac i32 i64).min ≤ v ∧ v ≤ (uac i32 i64).max
    have hv : (i32.min ≤ v ∧ v ≤ i32.max) ∨ (i64.min ≤ v ∧ v ≤ i64.max) := hv
    rw [e0]; omega
  · cases h; exact Or.inr (by decide)
  · cases g; exact ⟨Or.inr rfl, fun _ _ _ _ => trivial⟩
  · exact Or.inl (pBinTy_safe (o := .ar .add) (T := PTy.builtin i8) (U := demoΓ 2) (Or.inr rfl) h)

/-- `is >> n; i = n & 15;` for `safe<int> n`: a mask, of a signed number -/
private def masked : LStmt demo 3 :=
  .seq (.input 0) (.assign 1 (.bin (.bit .band) (.var 0) (.lit ⟨⟨i8, 15, 15, .lit false⟩, none, none⟩)))

private theorem masked_covered : SCovered demoΓ masked := by
  refine ⟨⟨rfl, by decide, rfl, rfl⟩, ⟨trivial, ⟨⟨by decide +kernel, nofun, nofun, fun b h => by cases h; rfl⟩, false, rfl⟩, fun T U h g => ?_⟩, fun T h => ?_⟩
  · cases h; cases g
    refine ⟨Or.inl rfl, fun q e h1 _ => ?_⟩
    cases h1
    intro R hR
    have : R = i32 := by
      have h : PP.native.result .band (Opd.ofSafe i32) ⟨i8, 15, 15, .lit false⟩ = .ret i32 := by decide +kernel
      exact Out.ret.inj (hR.symm.trans h)
    subst this
    refine ⟨by decide, Or.inr ⟨rfl, by decide +kernel, Or.inr ⟨by decide, fun S hS => ?_⟩⟩⟩
    have h : bitwiseTy .native .band (Opd.ofSafe i32) ⟨i8, 15, 15, .lit false⟩ = .ret (Opd.range i32 0 15) := by decide +kernel
    rw [← Out.ret.inj (h.symm.trans hS)]; decide
  · exact ⟨⟨by decide +kernel, nofun, fun _ => ⟨nofun, nofun⟩, nofun⟩, by decide, Or.inl rfl⟩

/-- the observable result of a run with the given input -/
private def run (p : LStmt demo 3) (f : Nat) (inp : String) : Option (Out Unit × List Int × String × Nat) :=
  (p.exec demoΓ f ⟨fun _ => 0, ⟨inp.toList, false, false⟩, [], 0⟩).map fun r =>
    (r.1, [r.2.st 0, r.2.st 1, r.2.st 2], String.ofList r.2.out, r.2.caught)

-- 1 + 4 + 9 + 16 + 25; with 50 squares the sum leaves the range of `short` and an exception is thrown, `sum` keeps its value;
-- a number that is not an `int` is rejected
example : run masked 20 "-3" = some (.ret (), [-3, 13, 0], "", 0) := by decide +kernel
example : run plain 20 "" = some (.ret (), [0, 0, 0], "6597", 0) := by decide +kernel
example : run squares 20 " 5 " = some (.ret (), [5, 5, 55], "55", 0) := by decide +kernel
example : run squares 60 "50" = some (.thrown .positive_overflow_error, [50, 46, 31395], "", 0) := by decide +kernel
example : run squares 20 "99999999999" = some (.thrown .domain_error, [2147483647, 0, 0], "", 0) := by decide +kernel
-- not finished after a few steps
example : run squares 4 "5" = none := by decide +kernel
-- a handler
example : run (.seq (.tryCatch squares (.assign 2 (.const i32 (-1)))) (.output (.var 2))) 60 "50" =
    some (.ret (), [50, 46, -1], "-1", 1) := by decide +kernel

example (f : Nat) (s s' : LState 3) (o : Out Unit) (hs : Ranged demoΓ s.st) (h : squares.exec demoΓ f s = some (o, s')) :
    NoUb o ∧ Ranged demoΓ s'.st := C59_safe_partial demo_careful demoΓ demo_good squares squares_covered f s s' o hs h

-- all kinds of operators; `%`, `<<`, `>>` and `&` meet their conditions
private def demoΓ' : Fin 2 → PTy demo
  | 0 => ⟨Opd.range i32 0 100, some false, some true⟩
  | 1 => ⟨Opd.range i32 1 7, some false, some true⟩

-- `((x % y) << 2 & 31) / y`
private def shifty : LExpr demo 2 :=
  .bin (.ar .div) (.bin (.bit .band) (.bin .shl (.bin (.ar .mod) (.var 0) (.var 1)) (.const i32 2)) (.const i32 31)) (.var 1)

example : shifty.eval demoΓ' (fun i => if i = 0 then 97 else 5) = .ret 1 ∧
    ival (fun i => if i = 0 then 97 else 5) shifty = some 1 := by decide +kernel

private theorem demo_good' : GoodVars demoΓ' := by
  intro i
  match i with
  | 0 | 1 => exact ⟨⟨by decide +kernel, nofun, fun _ => ⟨nofun, nofun⟩, nofun⟩, by decide⟩

-- shifts are covered under `loose_exception_policy`, which ignores their errors, if the types exclude these errors
example : OpCovered .native looseException (Opd.range i32 0 100) (Opd.range i32 0 10) .shl := by
  have h : PP.result .native .shl (Opd.range i32 0 100) (Opd.range i32 0 10) = .ret i32 := by decide +kernel
  refine ⟨Or.inr fun t u R ht hu hR => ?_, fun R hR => ?_⟩ <;> rw [h] at hR <;> cases hR
  · have h1 : 0 ≤ t := ht.1
    have h2 : t ≤ 100 := ht.2
    have h3 : 0 ≤ u := hu.1
    have h4 : u ≤ 10 := hu.2
    have h5 := Int.mul_le_mul h2 (show (2 : Int) ^ u.toNat ≤ 2 ^ 10 from two_pow_le (by omega))
      (Int.pow_nonneg (by decide)) (by decide)
    have h6 : i32.digits = 31 := by decide
    have h7 : i32.max = 2147483647 := by decide
    have : ShlFree i32 t u := by
      unfold ShlFree; omega
    exact this
  · decide +kernel

-- with automatic promotion: quotients of `safe<int>` are computed in 64 bits, so division is covered
example : PP.result .automatic .div (Opd.ofSafe i32) (Opd.ofSafe i32) = .ret i64 := by decide +kernel
example : OpCovered .automatic strictException (Opd.ofSafe i32) (Opd.ofSafe i32) (.ar .div) := by
  intro R h
  rw [show PP.result .automatic .div (Opd.ofSafe i32) (Opd.ofSafe i32) = .ret i64 by decide +kernel] at h
  cases h
  exact ⟨⟨by decide +kernel, fun _ => by decide +kernel⟩, ⟨by decide +kernel, fun _ => by decide +kernel⟩,
    Or.inl ⟨by decide +kernel, by decide +kernel⟩⟩
example : arith .automatic strictException .div (Opd.ofSafe i32) (Opd.ofSafe i32) (-2147483648) (-1) = .ret 2147483648 := by
  decide +kernel

-- mixed policies
example : (LExpr.bin (.ar .add) (.var 0) (.cast ⟨Opd.ofSafe i32, some true, some true⟩ (.var 1))).ty demoΓ' =
    .fault .illFormed := by decide +kernel
example : (LExpr.bin (.ar .add) (.const i32 1) (.var 1)).ty demoΓ' =
    .ret ⟨Opd.range i32 (-2147483647) 2147483647, some false, some true⟩ := by decide +kernel

end
end Verif.Props

namespace Verif.Props
open Spec Lang

section
variable [Arch]

/-- `~a` in a program is the complement of the library (C38). -/
theorem C38_program {N : Names} {n : Nat} (Γ : Fin n → PTy N) (s : Fin n → Int) (a : LExpr N n) (T : PTy N) (q : N.P) (e : N.E)
    (hT : a.ty Γ = .ret T) (hk : T.opd.kind = .safe) (hq : T.pr = some q) (he : T.ex = some e) :
    (LExpr.compl T.opd.base a).eval Γ s = (do let x ← a.eval Γ s; compl (N.prom q) T.opd x) ∧
    (LExpr.compl T.opd.base a).ty Γ = (do let S ← complTy (N.prom q) T.opd; .ret ⟨S, some q, some e⟩) := by
  have h1 : T.isSafe = true := by unfold PTy.isSafe; rw [hk]; rfl
  constructor
  · simp only [LExpr.compl, LExpr.eval, LExpr.ty, hT, ret_bind]
    unfold pBinVal
    simp only [h1, Bool.or_true, if_true, hq, he]
    rfl
  · simp only [LExpr.compl, LExpr.ty, hT, ret_bind]
    unfold pBinTy
    simp only [h1, Bool.or_true, if_true, hq, he]
    rfl

end

section
attribute [local instance] lp64

private def compN : Names := ⟨Unit, Unit, inferInstance, inferInstance, fun _ => .native, fun _ => ⟨.throw, .throw, .throw, .throw⟩⟩

example : (LExpr.compl u32 (.var 0) : LExpr compN 1).eval (fun _ => ⟨Opd.ofSafe u32, some (), some ()⟩) (fun _ => 5) =
    .ret (2 ^ 32 - 6) := by decide +kernel

/- `while(x) --x;` with `safe<int> x = 3` throws at once (C69), although over the integers it ends with 0. -/
example : ((LStmt.while (.truth (.var 0)) (.dec 0) : LStmt compN 1).exec (fun _ => ⟨Opd.ofSafe i32, some (), some ()⟩) 9
      ⟨fun _ => 3, ⟨[], true, false⟩, [], 0⟩).map (·.1) = some (.thrown .positive_overflow_error) := by decide +kernel
example : ((iexec 9 (LStmt.while (.truth (.var 0)) (.dec 0) : LStmt compN 1) ⟨fun _ => 3, [], []⟩).map (·.map (·.st 0))) =
    some (some 0) := by decide +kernel

end
end Verif.Props
