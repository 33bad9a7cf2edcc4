import Verif.Proofs.Widen
import Verif.Props.Bare
import Verif.Props.Order

/-!
Property C100: wider types do no harm. A program that runs without an error runs in the same way when its variables get wider
signed types.
-/

namespace Verif.Props
open Spec Lang

section
variable [Arch]

/-- Expressions, native promotion, policies that throw or trap: an expression that has a value has the same value when the
variables have wider types, if it is accepted by the compiler. -/
theorem C100_expression_partial {N : Names} (hN : Careful N) (hn : Native N) {n : Nat} (Γ Γ' : Fin n → PTy N) (hΓ : GoodVars Γ)
    (hΓ' : GoodVars Γ') (hw : ∀ i, Widens (Γ i) (Γ' i)) (s : Fin n → Int) (hs : Ranged Γ s) (e : LExpr N n)
    (he : ECovered Γ e) (he' : ECovered Γ' e) (hg : ESigned e) (v : Int) (h : e.eval Γ s = .ret v) :
    e.eval Γ' s = .ret v ∨ e.eval Γ' s = .fault .illFormed := by
  have hs' : Ranged Γ' s := fun i => ⟨Int.le_trans (hw i).low (hs i).1, Int.le_trans (hs i).2 (hw i).high⟩
  have hf := eval_wider hN hn hΓ (fun i => (hw i).wider) hs e he hg h
  rcases C66_expr_partial hN Γ' hΓ' s hs' e he' hf with ⟨w, h1, h2⟩ | h1
  · rcases eval_good hN hΓ hs e he with ⟨_, x, _, _, h3, _, h4⟩ | ⟨x, h3⟩ | h3 <;> rw [h] at h3 <;> cases h3
    rw [h2] at h4; cases h4
    exact Or.inl h1
  · exact Or.inr h1

/-- Conditions. -/
theorem C100_condition_partial {N : Names} (hN : Careful N) (hn : Native N) {n : Nat} (Γ Γ' : Fin n → PTy N) (hΓ : GoodVars Γ)
    (hΓ' : GoodVars Γ') (hw : ∀ i, Widens (Γ i) (Γ' i)) (s : Fin n → Int) (hs : Ranged Γ s) (c : LCond N n)
    (hc : CCovered Γ c) (hc' : CCovered Γ' c) (hg : CSigned c) (b : Bool) (h : c.eval Γ s = .ret b) :
    c.eval Γ' s = .ret b ∨ c.eval Γ' s = .fault .illFormed := by
  have hs' : Ranged Γ' s := fun i => ⟨Int.le_trans (hw i).low (hs i).1, Int.le_trans (hs i).2 (hw i).high⟩
  have hf := cond_wider hN hn hΓ (fun i => (hw i).wider) hs c hc hg h
  rcases C66_cond_partial hN Γ' hΓ' s hs' c hc' hf with ⟨w, h1, h2⟩ | h1
  · rcases cond_good hN hΓ hs c hc with ⟨x, h3, h4⟩ | ⟨x, h3⟩ | h3 <;> rw [h] at h3 <;> cases h3
    rw [h2] at h4; cases h4
    exact Or.inl h1
  · exact Or.inr h1

private theorem storing_ret {n : Nat} {s s' : LState n} {i : Fin n} {r : Out Int} (h : storing s i r = (.ret (), s')) :
    ∃ v, r = .ret v := by
  rcases r with v | e | k
  · exact ⟨v, rfl⟩
  · cases h
  · cases h

private theorem opAssign_wider {N : Names} (hN : Careful N) (hn : Native N) {n : Nat} {Γ Γ' : Fin n → PTy N} (hΓ : GoodVars Γ)
    (hw : ∀ i, Widens (Γ i) (Γ' i)) {s : Fin n → Int} (hs : Ranged Γ s) {o : Op2} {i : Fin n} {e : LExpr N n}
    (hc : AssignCovered Γ o i e) (hg : ESigned e) {r : Int} (g : opAssignVal Γ s o i e = .ret r) :
    EFits Γ' s e ∧ ∀ U u, e.ty Γ' = .ret U → ival s e = some u → BinFits o (Γ' i) U (s i) u ∧
        ∀ v, imath o (s i) u = some v → (Γ' i).opd.Has v := by
  have hf := opAssign_fits hN hΓ hs hc g
  have hw' := fun i => (hw i).wider
  unfold opAssignVal at g
  rcases ty_st Γ e with ⟨A, ea⟩ | ea <;> rw [ea] at g
  · rcases eval_good hN hΓ hs e hc.1 with ⟨A', x, ea', wA, vx, hx, mx⟩ | ⟨x, ex⟩ | ex
    · rw [ea] at ea'; obtain rfl := Out.ret.inj ea'
      refine ⟨eval_wider hN hn hΓ hw' hs e hc.1 hg vx, fun U u hU hu => ?_⟩
      obtain ⟨f1, f2⟩ := hf.2 A u ea hu
      rw [mx] at hu; cases hu
      exact ⟨binFits_wider hn (hΓ i).1.1 wA.1 (hw' i) (ty_wider hn hw' e hg ea hU) (hs i) hx f1,
        fun v hv => ⟨Int.le_trans (hw i).low (f2 v hv).1, Int.le_trans (f2 v hv).2 (hw i).high⟩⟩
    · rw [ex] at g; cases g
    · rw [ex] at g; cases g
  · cases g

/-- Everything a program computes fits its wider types too. -/
theorem C100_fits_partial {N : Names} (hN : Careful N) (hn : Native N) {n : Nat} (Γ Γ' : Fin n → PTy N) (hΓ : GoodVars Γ)
    (hΓ' : GoodVars Γ') (hw : ∀ i, Widens (Γ i) (Γ' i)) :
    ∀ (f : Nat) (p : LStmt N n) (s s' : LState n), SCovered Γ p → SSigned p → Ranged Γ s.st →
      p.exec Γ f s = some (.ret (), s') → s'.caught = s.caught → SFits Γ' f p (abst s)
  | 0, _, _, _, _, _, _, _, _ => trivial
  | f + 1, .skip, _, _, _, _, _, _, _ => trivial
  | f + 1, .assign i e, s, s', hc, hg, hs, h, _ => by
    simp only [LStmt.exec, Option.some.injEq] at h
    obtain ⟨v, hv⟩ := storing_ret h
    obtain ⟨f1, f2⟩ := assign_fits hN hΓ hs hc.1 hc.2 hv
    refine ⟨?_, fun v hv => ⟨Int.le_trans (hw i).low (f2 v hv).1, Int.le_trans (f2 v hv).2 (hw i).high⟩⟩
    rcases eval_good hN hΓ hs e hc.1 with ⟨_, x, _, _, vx, _, _⟩ | ⟨x, ex⟩ | ex
    · exact eval_wider hN hn hΓ (fun i => (hw i).wider) hs e hc.1 hg vx
    · unfold assignVal at hv
      rcases ty_st Γ e with ⟨A, ea⟩ | ea <;> rw [ea] at hv
      · rw [ex] at hv; cases hv
      · cases hv
    · unfold assignVal at hv
      rcases ty_st Γ e with ⟨A, ea⟩ | ea <;> rw [ea] at hv
      · rw [ex] at hv; cases hv
      · cases hv
  | f + 1, .opAssign o i e, s, s', hc, hg, hs, h, _ => by
    simp only [LStmt.exec, Option.some.injEq] at h
    obtain ⟨v, hv⟩ := storing_ret h
    exact opAssign_wider hN hn hΓ hw hs hc hg hv
  | f + 1, .inc i, s, s', hc, hg, hs, h, _ => by
    simp only [LStmt.exec, Option.some.injEq] at h
    obtain ⟨v, hv⟩ := storing_ret h
    obtain ⟨h1, h2⟩ := (opAssign_wider hN hn hΓ hw hs (inc_covered hc (Or.inl rfl)) tInt_promoted hv).2 _ 1 rfl rfl
    exact ⟨h1, h2 _ rfl⟩
  | f + 1, .dec i, s, s', hc, hg, hs, h, _ => by
    simp only [LStmt.exec, Option.some.injEq] at h
    obtain ⟨v, hv⟩ := storing_ret h
    obtain ⟨h1, h2⟩ := (opAssign_wider hN hn hΓ hw hs (inc_covered hc (Or.inr rfl)) tInt_promoted hv).2 _ 1 rfl rfl
    exact ⟨h1, h2 _ rfl⟩
  | f + 1, .input i, s, s', hc, hg, hs, h, hk => by
    obtain ⟨neg, k, rest, h1, h2, h3⟩ := C71_fits_partial hN Γ hΓ (f + 1) (.input i) s s' hc hs h hk
    refine ⟨neg, k, rest, h1, ⟨Int.le_trans (hw i).low h2.1, Int.le_trans h2.2 (hw i).high⟩, fun hneg => ?_⟩
    have hsg := h3 hneg
    by_contra hu
    simp only [Bool.not_eq_true] at hu
    have wl := (hw i).low
    have h0 : (Γ' i).opd.base.min = 0 := by unfold ITy.min; rw [hu]; rfl
    have h1 : (Γ' i).opd.base.min ≤ (Γ' i).opd.lo :=
      ((hΓ' i).1.1.has_in (t := (Γ' i).opd.lo) ⟨le_refl _, (hΓ' i).1.1.2.2.2.1⟩).1
    have h2 : (Γ i).opd.lo < 0 := by
      rw [hc.2.2.1]; unfold ITy.min; rw [hsg]
      have := two_pow_pos (Γ i).opd.base.digits
      simp only [if_true]; omega
    omega
  | f + 1, .output e, s, s', hc, hg, hs, h, _ => by
    simp only [LStmt.exec] at h
    rcases ty_st Γ e with ⟨A, ea⟩ | ea <;> rw [ea] at h
    · rcases hv : e.eval Γ s.st with v | x | k
      · exact eval_wider hN hn hΓ (fun i => (hw i).wider) hs e hc.1 hg hv
      · rw [hv] at h; cases h
      · rw [hv] at h; cases h
    · cases h
  | f + 1, .seq a b, s, s', hc, hg, hs, h, hk => by
    simp only [LStmt.exec] at h
    rcases ha : a.exec Γ f s with _ | ⟨o1, s1⟩ <;> rw [ha] at h
    · cases h
    · obtain ⟨k1, k2, k3, k4⟩ := exec_fine hN hΓ f a s o1 s1 hc.1 hs ha
      rcases k1 with rfl | ⟨x, rfl⟩ | rfl
      · have h : b.exec Γ f s1 = some (.ret (), s') := h
        obtain ⟨_, _, g3, _⟩ := exec_fine hN hΓ f b s1 _ s' hc.2 k2 h
        have e1 : s1.caught = s.caught := by omega
        refine ⟨C100_fits_partial hN hn Γ Γ' hΓ hΓ' hw f a s s1 hc.1 hg.1 hs ha e1, fun s2 h2 => ?_⟩
        rw [k4 rfl e1] at h2
        cases h2
        exact C100_fits_partial hN hn Γ Γ' hΓ hΓ' hw f b s1 s' hc.2 hg.2 k2 h (by omega)
      · cases h
      · cases h
  | f + 1, .ite c a b, s, s', hc, hg, hs, h, hk => by
    simp only [LStmt.exec] at h
    rcases cond_good hN hΓ hs c hc.1 with ⟨x, h1, h2⟩ | ⟨x, h1⟩ | h1 <;> rw [h1] at h
    · refine ⟨cond_wider hN hn hΓ (fun i => (hw i).wider) hs c hc.1 hg.1 h1, fun h3 => ?_, fun h3 => ?_⟩ <;>
        rw [show (abst s).st = s.st from rfl, h2] at h3 <;> cases h3
      · exact C100_fits_partial hN hn Γ Γ' hΓ hΓ' hw f a s s' hc.2.1 hg.2.1 hs h hk
      · exact C100_fits_partial hN hn Γ Γ' hΓ hΓ' hw f b s s' hc.2.2 hg.2.2 hs h hk
    · cases h
    · cases h
  | f + 1, .while c a, s, s', hc, hg, hs, h, hk => by
    simp only [LStmt.exec] at h
    rcases cond_good hN hΓ hs c hc.1 with ⟨x, h1, h2⟩ | ⟨x, h1⟩ | h1 <;> rw [h1] at h
    · refine ⟨cond_wider hN hn hΓ (fun i => (hw i).wider) hs c hc.1 hg.1 h1, fun h3 => ?_⟩
      rw [show (abst s).st = s.st from rfl, h2] at h3
      cases h3
      dsimp only at h
      rcases ha : a.exec Γ f s with _ | ⟨o1, s1⟩ <;> rw [ha] at h
      · cases h
      · obtain ⟨k1, k2, k3, k4⟩ := exec_fine hN hΓ f a s o1 s1 hc.2 hs ha
        rcases k1 with rfl | ⟨x, rfl⟩ | rfl
        · have h : LStmt.exec Γ f (.while c a) s1 = some (.ret (), s') := h
          obtain ⟨_, _, g3, _⟩ := exec_fine hN hΓ f (.while c a) s1 _ s' hc k2 h
          have e1 : s1.caught = s.caught := by omega
          refine ⟨C100_fits_partial hN hn Γ Γ' hΓ hΓ' hw f a s s1 hc.2 hg.2 hs ha e1, fun s2 h2 => ?_⟩
          rw [k4 rfl e1] at h2
          cases h2
          exact C100_fits_partial hN hn Γ Γ' hΓ hΓ' hw f (.while c a) s1 s' hc hg k2 h (by omega)
        · cases h
        · cases h
    · cases h
    · cases h
  | f + 1, .tryCatch a b, s, s', hc, hg, hs, h, hk => by
    simp only [LStmt.exec] at h
    rcases ha : a.exec Γ f s with _ | ⟨o1, s1⟩ <;> rw [ha] at h
    · cases h
    · obtain ⟨k1, k2, k3, k4⟩ := exec_fine hN hΓ f a s o1 s1 hc.1 hs ha
      rcases k1 with rfl | ⟨x, rfl⟩ | rfl
      · cases h
        exact C100_fits_partial hN hn Γ Γ' hΓ hΓ' hw f a s _ hc.1 hg.1 hs ha hk
      · have h : b.exec Γ f { s1 with caught := s1.caught + 1 } = some (.ret (), s') := h
        obtain ⟨_, _, g3, _⟩ := exec_fine hN hΓ f b { s1 with caught := s1.caught + 1 } _ s' hc.2 k2 h
        have g3 : s1.caught + 1 ≤ s'.caught := g3
        omega
      · cases h

/-- Whole programs: an execution that ends without an exception, thrown or caught, is the execution of the same program with
wider variables: the same values of the variables, input consumed and output written. The only other possibility is that the program with wider variables
is not accepted by the compiler. -/
theorem C100_program_partial {N : Names} (hN : Careful N) (hn : Native N) {n : Nat} (Γ Γ' : Fin n → PTy N) (hΓ : GoodVars Γ)
    (hΓ' : GoodVars Γ') (hw : ∀ i, Widens (Γ i) (Γ' i)) (f : Nat) (p : LStmt N n) (s s' : LState n) (hp : SCovered Γ p)
    (hp' : SCovered Γ' p) (hg : SSigned p) (hs : Ranged Γ s.st) (hi : StreamOk s.inp)
    (h : p.exec Γ f s = some (.ret (), s')) (hk : s'.caught = s.caught) :
    (∃ s2, p.exec Γ' f s = some (.ret (), s2) ∧ abst s2 = abst s' ∧ s2.caught = s'.caught) ∨
    ∃ s2, p.exec Γ' f s = some (.fault .illFormed, s2) := by
  have hs' : Ranged Γ' s.st := fun i => ⟨Int.le_trans (hw i).low (hs i).1, Int.le_trans (hs i).2 (hw i).high⟩
  have hf := C100_fits_partial hN hn Γ Γ' hΓ hΓ' hw f p s s' hp hg hs h hk
  have hx := (exec_fine hN hΓ f p s _ s' hp hs h).2.2.2 rfl hk
  rcases C66_program_partial hN Γ' hΓ' f p s hp' hs' hi hf with ⟨_, h2⟩ | ⟨s2, h1, h2, h3, _⟩ | h1
  · rw [hx] at h2; cases h2
  · rw [hx] at h2
    exact Or.inl ⟨s2, h1, (Option.some.inj (Option.some.inj h2)).symm, by omega⟩
  · exact Or.inr h1

/-- If the wider program compiles (all its operations are accepted for some operands), it ends in the same way. -/
theorem C100_accepted_partial {N : Names} (hN : Careful N) (hn : Native N) {n : Nat} (Γ Γ' : Fin n → PTy N) (hΓ : GoodVars Γ)
    (hΓ' : GoodVars Γ') (hw : ∀ i, Widens (Γ i) (Γ' i)) (f : Nat) (p : LStmt N n) (s s' : LState n) (hp : SCovered Γ p)
    (hp' : SCovered Γ' p) (ha : SAccepted Γ' p) (hg : SSigned p) (hs : Ranged Γ s.st) (hi : StreamOk s.inp)
    (h : p.exec Γ f s = some (.ret (), s')) (hk : s'.caught = s.caught) :
    ∃ s2, p.exec Γ' f s = some (.ret (), s2) ∧ abst s2 = abst s' ∧ s2.caught = s'.caught :=
  (C100_program_partial hN hn Γ Γ' hΓ hΓ' hw f p s s' hp hp' hg hs hi h hk).elim id fun ⟨s2, h2⟩ =>
    absurd h2 (C67_program_partial hN Γ' hΓ' f p s s2 hp' ha
      fun i => ⟨Int.le_trans (hw i).low (hs i).1, Int.le_trans (hs i).2 (hw i).high⟩)

/-- The same for any order of evaluation: if the narrower program ends without an exception with its operands evaluated in some order, then
the wider one ends in every order, with the same values, input consumed and output. -/
theorem C100_order_partial {N : Names} (hN : Careful N) (hn : Native N) {n : Nat} (Γ Γ' : Fin n → PTy N) (hΓ : GoodVars Γ)
    (hΓ' : GoodVars Γ') (hw : ∀ i, Widens (Γ i) (Γ' i)) (p : LStmt N n) (s s' : LState n) (hp : SCovered Γ p)
    (hp' : SCovered Γ' p) (ha : SAccepted Γ' p) (hg : SSigned p) (hs : Ranged Γ s.st) (hi : StreamOk s.inp)
    (h : AnyS Γ p s (.ret ()) s') (hk : s'.caught = s.caught) :
    ∃ s2, abst s2 = abst s' ∧ AnyS Γ' p s (.ret ()) s2 ∧ ∀ r t, AnyS Γ' p s r t → r = .ret () ∧ t = s2 := by
  obtain ⟨k, g⟩ := (C92_quiet Γ p s s' h hk).1
  obtain ⟨s2, h1, h2, h3⟩ := C100_accepted_partial hN hn Γ Γ' hΓ hΓ' hw k p s s' hp hp' ha hg hs hi (g k (Nat.le_refl k)) hk
  have he : Ends Γ' p s (.ret ()) s2 := ⟨k, fun f hf => C59_bound Γ' k p s _ h1 f hf⟩
  have hany := (C92_model Γ' p s).1 _ _ he
  exact ⟨s2, h2, hany, (C92_quiet Γ' p s s2 hany (by omega)).2⟩

/-- The other way round: what the wider program computes without an error is right, or the narrower one reports it. An execution of the program
with narrower variables that ends otherwise than the one with wider variables throws an exception or catches one. -/
theorem C100_reported_partial {N : Names} (hN : Careful N) (hn : Native N) {n : Nat} (Γ Γ' : Fin n → PTy N) (hΓ : GoodVars Γ)
    (hΓ' : GoodVars Γ') (hw : ∀ i, Widens (Γ i) (Γ' i)) (f : Nat) (p : LStmt N n) (s s1 s2 : LState n) (o1 o2 : Out Unit)
    (hp : SCovered Γ p) (hp' : SCovered Γ' p) (hg : SSigned p) (hs : Ranged Γ s.st) (hi : StreamOk s.inp)
    (h1 : p.exec Γ f s = some (o1, s1)) (h2 : p.exec Γ' f s = some (o2, s2)) (ha1 : o1 ≠ .fault .illFormed)
    (ha2 : o2 ≠ .fault .illFormed) (hd : o1 ≠ o2 ∨ abst s1 ≠ abst s2) : (∃ x, o1 = .thrown x) ∨ s.caught < s1.caught := by
  obtain ⟨k1, _, k3, _⟩ := exec_fine hN hΓ f p s o1 s1 hp hs h1
  rcases k1 with rfl | h | h
  · right
    by_contra hn'
    rcases C100_program_partial hN hn Γ Γ' hΓ hΓ' hw f p s s1 hp hp' hg hs hi h1 (by omega) with ⟨s3, h, h3, _⟩ | ⟨s3, h⟩ <;>
      rw [h2] at h <;> cases h
    · rcases hd with hd | hd
      · exact hd rfl
      · exact hd h3.symm
    · exact ha2 rfl
  · exact Or.inl h
  · exact absurd h ha1

end

/-! ### a program, and the conditions that are needed -/

namespace Widen
attribute [local instance] lp64

/-- native promotion, `strict_exception_policy` -/
@[reducible] def names : Names :=
  ⟨Unit, Unit, inferInstance, inferInstance, fun _ => .native, fun _ => strictException⟩

theorem careful : Careful names := ⟨fun _ => Or.inl rfl, fun _ => trivial⟩
theorem native : Native names := fun _ => rfl

/-- `x` is a `safe<unsigned char>`, `y` a `safe<short>` -/
def Γ : Fin 2 → PTy names
  | 0 => ⟨Opd.ofSafe u8, some (), some ()⟩
  | 1 => ⟨Opd.ofSafe i16, some (), some ()⟩

/-- `x` is a `safe<int>`, `y` a `safe<long>` -/
def Γ' : Fin 2 → PTy names
  | 0 => ⟨Opd.ofSafe i32, some (), some ()⟩
  | 1 => ⟨Opd.ofSafe i64, some (), some ()⟩

theorem good : GoodVars Γ
  | 0 => ⟨⟨by decide, fun h => (by cases h), fun _ => ⟨by decide, by decide⟩, fun b h => by cases h⟩, Or.inr rfl⟩
  | 1 => ⟨⟨by decide, fun h => (by cases h), fun _ => ⟨by decide, by decide⟩, fun b h => by cases h⟩, Or.inr rfl⟩

theorem good' : GoodVars Γ'
  | 0 => ⟨⟨by decide, fun h => (by cases h), fun _ => ⟨by decide, by decide⟩, fun b h => by cases h⟩, Or.inr rfl⟩
  | 1 => ⟨⟨by decide, fun h => (by cases h), fun _ => ⟨by decide, by decide⟩, fun b h => by cases h⟩, Or.inr rfl⟩

theorem widens : ∀ i, Widens (Γ i) (Γ' i)
  | 0 => ⟨rfl, rfl, rfl, rfl, rfl, by decide, by decide, by decide⟩
  | 1 => ⟨rfl, rfl, rfl, rfl, rfl, by decide, by decide, by decide⟩

/-- `while (x != 0) { y += x * x; --x; } std::cout << y;` -/
def squares : LStmt names 2 :=
  .seq (.while (.cmp .ne (.var 0) (.const i32 0))
    (.seq (.opAssign (.ar .add) 1 (.bin (.ar .mul) (.var 0) (.var 0))) (.dec 0))) (.output (.var 1))

theorem covered : SCovered Γ squares := by
  refine ⟨⟨⟨trivial, ⟨by decide, by decide⟩, fun T U hT _ => ?_⟩, ⟨⟨trivial, trivial, fun T U hT _ => ?_⟩, fun U _ => ?_⟩, rfl⟩, trivial,
    fun T hT => ?_⟩
  · cases hT; exact Or.inl (Or.inl rfl)
  · cases hT; exact ⟨Or.inl rfl, fun _ _ _ _ => trivial⟩
  · exact ⟨Or.inl rfl, fun _ _ _ _ => trivial⟩
  · cases hT; exact Or.inl rfl

theorem covered' : SCovered Γ' squares := by
  refine ⟨⟨⟨trivial, ⟨by decide, by decide⟩, fun T U hT _ => ?_⟩, ⟨⟨trivial, trivial, fun T U hT _ => ?_⟩, fun U _ => ?_⟩, rfl⟩, trivial,
    fun T hT => ?_⟩
  · cases hT; exact Or.inl (Or.inl rfl)
  · cases hT; exact ⟨Or.inl rfl, fun _ _ _ _ => trivial⟩
  · exact ⟨Or.inl rfl, fun _ _ _ _ => trivial⟩
  · cases hT; exact Or.inl rfl

theorem signed : SSigned squares := ⟨⟨⟨trivial, rfl⟩, ⟨trivial, trivial⟩, trivial⟩, trivial⟩

-- the hypotheses hold for every execution that ends well
example (f : Nat) (s s' : LState 2) (hs : Ranged Γ s.st) (hi : StreamOk s.inp) (h : squares.exec Γ f s = some (.ret (), s'))
    (hk : s'.caught = s.caught) :
    (∃ s2, squares.exec Γ' f s = some (.ret (), s2) ∧ abst s2 = abst s' ∧ s2.caught = s'.caught) ∨
    ∃ s2, squares.exec Γ' f s = some (.fault .illFormed, s2) :=
  C100_program_partial careful native Γ Γ' good good' widens f squares s s' covered covered' signed hs hi h hk

theorem accepted' : SAccepted Γ' squares := by
  refine ⟨⟨⟨trivial, trivial, Γ' 0, PTy.builtin i32, rfl, rfl, 0, 0, by decide +kernel⟩, ⟨⟨trivial, trivial, Γ' 0, Γ' 0, rfl, rfl, 0, 0, by decide +kernel⟩,
    Γ' 0, by decide +kernel, ⟨0, 0, by decide +kernel⟩, Γ' 1, by decide +kernel, 0, by decide +kernel⟩,
    ⟨0, 1, by decide +kernel⟩, Γ' 0, by decide +kernel, 0, by decide +kernel⟩, trivial, Γ' 1, rfl⟩

-- in any order of evaluation
example (s s' : LState 2) (hs : Ranged Γ s.st) (hi : StreamOk s.inp) (h : AnyS Γ squares s (.ret ()) s')
    (hk : s'.caught = s.caught) :
    ∃ s2, abst s2 = abst s' ∧ AnyS Γ' squares s (.ret ()) s2 ∧ ∀ r t, AnyS Γ' squares s r t → r = .ret () ∧ t = s2 :=
  C100_order_partial careful native Γ Γ' good good' widens squares s s' covered covered' accepted' signed hs hi h hk

-- the squares up to 10 with both types
example : (squares.exec Γ 40 ⟨fun i => if i = 0 then 10 else 0, ⟨[], false, false⟩, [], 0⟩).map (fun r => (r.1, r.2.out)) =
      some (.ret (), ['3', '8', '5']) ∧
    (squares.exec Γ' 40 ⟨fun i => if i = 0 then 10 else 0, ⟨[], false, false⟩, [], 0⟩).map (fun r => (r.1, r.2.out)) =
      some (.ret (), ['3', '8', '5']) := by decide +kernel

-- the squares up to 50 are too much for a `safe<short>`; the exception is gone with the wider types
example : (squares.exec Γ 80 ⟨fun i => if i = 0 then 50 else 0, ⟨[], false, false⟩, [], 0⟩).map (fun r => r.1) =
      some (.thrown .positive_overflow_error) ∧
    (squares.exec Γ' 80 ⟨fun i => if i = 0 then 50 else 0, ⟨[], false, false⟩, [], 0⟩).map (fun r => (r.1, r.2.out)) =
      some (.ret (), ['4', '2', '9', '2', '5']) := by decide +kernel

end Widen

section
attribute [local instance] lp64

/-- The full statement (any wider types, any policy) is false. A `safe<unsigned short>` is promoted to `int`, a `safe<unsigned>` is not: `x - y` is
-1 with the first, an exception with the second; -/
theorem C100_refuted_unsigned :
    (LExpr.bin (.ar .sub) (.var 0) (.var 1) : LExpr bareNames 2).eval (fun _ => ⟨Opd.ofSafe u16, some false, some ()⟩)
      (fun i => if i = 0 then 1 else 2) = .ret (-1) ∧
    (LExpr.bin (.ar .sub) (.var 0) (.var 1) : LExpr bareNames 2).eval (fun _ => ⟨Opd.ofSafe u32, some false, some ()⟩)
      (fun i => if i = 0 then 1 else 2) = .thrown .negative_overflow_error := by
  decide +kernel

/-- with automatic promotion products of unsigned numbers may be larger than those of signed numbers: `x * x * (x * x)` fits for a
`safe<unsigned short>`, but not for a `safe<int>` with the same value; -/
theorem C100_refuted_automatic :
    (LExpr.bin (.ar .mul) (.bin (.ar .mul) (.var 0) (.var 0)) (.bin (.ar .mul) (.var 0) (.var 0)) : LExpr bareNames 1).eval
      (fun _ => ⟨Opd.ofSafe u16, some true, some ()⟩) (fun _ => 65535) = .ret 18445618199572250625 ∧
    (LExpr.bin (.ar .mul) (.bin (.ar .mul) (.var 0) (.var 0)) (.bin (.ar .mul) (.var 0) (.var 0)) : LExpr bareNames 1).eval
      (fun _ => ⟨Opd.ofSafe i32, some true, some ()⟩) (fun _ => 65535) = .thrown .positive_overflow_error := by
  decide +kernel

/-- and a wider range in a narrower type may overflow: a `long` from 0 to 100 and a `signed char` from 0 to 120, multiplied by 2000000000. -/
theorem C100_refuted_width :
    (LExpr.bin (.ar .mul) (.var 0) (.const i32 2000000000) : LExpr bareNames 1).eval
      (fun _ => ⟨Opd.range i64 0 100, some false, some ()⟩) (fun _ => 2) = .ret 4000000000 ∧
    (LExpr.bin (.ar .mul) (.var 0) (.const i32 2000000000) : LExpr bareNames 1).eval
      (fun _ => ⟨Opd.range i8 0 120, some false, some ()⟩) (fun _ => 2) = .thrown .positive_overflow_error := by
  decide +kernel

end
end Verif.Props
