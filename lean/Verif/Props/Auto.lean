import Verif.Proofs.Auto
import Verif.Props.Prom

/-!
Property C102: automatic promotion does no harm. A program that runs without an error under native promotion runs in the same way under
automatic promotion.
-/

namespace Verif.Props
open Spec Lang

section
variable [Arch]

/-- Expressions of sums, differences and products, policies that throw or trap: an expression that has a value under native promotion has
the same value under automatic promotion, if it is accepted by the compiler. -/
theorem C102_expression_partial {N : Names} (hN : Careful N) (hn : Native N) {n : Nat} (Γ : Fin n → PTy N) (hΓ : GoodVars Γ)
    (hm : ∀ i, Mid (Γ i).opd) (s : Fin n → Int) (hs : Ranged Γ s) (e : LExpr N n) (he : ECovered Γ e)
    (he' : ECovered (fun i => promT (autoOf N) (Γ i)) (promE (autoOf N) e)) (hg : ERing e) (v : Int) (h : e.eval Γ s = .ret v) :
    (promE (autoOf N) e).eval (fun i => promT (autoOf N) (Γ i)) s = .ret v ∨
    (promE (autoOf N) e).eval (fun i => promT (autoOf N) (Γ i)) s = .fault .illFormed := by
  have hf := (auto_expr hN hn hΓ hm hs e he hg h).1
  rcases C66_expr_partial (careful_auto hN) (fun i => promT (autoOf N) (Γ i)) (good_auto hΓ) s hs _ he' hf with ⟨w, h1, h2⟩ | h1
  · rcases eval_good hN hΓ hs e he with ⟨_, x, _, _, h3, _, h4⟩ | ⟨x, h3⟩ | h3 <;> rw [h] at h3 <;> cases h3
    rw [ival_prom, h4] at h2; cases h2
    exact Or.inl h1
  · exact Or.inr h1

/-- An operation of the library: with operands of signed types that contain -1 and 1, automatic promotion computes every sum, difference
and product that the widest type of the machine represents, and stores it in the result. -/
theorem C102_operation {o : Arith} (ho : o = .add ∨ o = .sub ∨ o = .mul) {T U : Opd} (wT : T.Wf) (wU : U.Wf) (hT : Mid T) (hU : Mid U) :
    ∃ R S, PP.automatic.result o.binOp T U = .ret R ∧ arithTy .automatic o T U = .ret S ∧ Mid S ∧
      ∀ x y, T.Has x → U.Has y → R.In x ∧ R.In y ∧ (tIntMax.In (math o x y) → R.In (math o x y) ∧ S.Has (math o x y)) := by
  obtain ⟨R, S, h1, h2, _, _, h3, h4, h5, h6⟩ := auto_op ho wT wU hT hU
  exact ⟨R, S, h1, h2, h3, fun x y hx hy => ⟨h4 x hx, h5 y hy, h6 x y hx hy⟩⟩

private theorem storing_ret {n : Nat} {s s' : LState n} {i : Fin n} {r : Out Int} (h : storing s i r = (.ret (), s')) :
    ∃ v, r = .ret v := by
  rcases r with v | e | k
  · exact ⟨v, rfl⟩
  · cases h
  · cases h

/-- What a program does without an error under native promotion fits its types under automatic promotion. -/
theorem C102_fits_partial {N : Names} (hN : Careful N) (hn : Native N) {n : Nat} (Γ : Fin n → PTy N) (hΓ : GoodVars Γ)
    (hm : ∀ i, Mid (Γ i).opd) :
    ∀ (f : Nat) (p : LStmt N n) (s s' : LState n), SCovered Γ p → SRing p → Ranged Γ s.st →
      p.exec Γ f s = some (.ret (), s') → s'.caught = s.caught →
      SFits (fun i => promT (autoOf N) (Γ i)) f (promS (autoOf N) p) (abst s)
  | 0, _, _, _, _, _, _, _, _ => trivial
  | f + 1, .skip, _, _, _, _, _, _, _ => trivial
  | f + 1, .assign i e, s, s', hc, hg, hs, h, _ => by
    simp only [LStmt.exec, Option.some.injEq] at h
    obtain ⟨v, hv⟩ := storing_ret h
    obtain ⟨_, f2⟩ := assign_fits hN hΓ hs hc.1 hc.2 hv
    refine ⟨?_, fun v hv => f2 v (by rw [ival_prom] at hv; exact hv)⟩
    rcases eval_good hN hΓ hs e hc.1 with ⟨_, x, _, _, vx, _, _⟩ | ⟨x, ex⟩ | ex
    · exact (auto_expr hN hn hΓ hm hs e hc.1 hg vx).1
    · unfold assignVal at hv
      rcases ty_st Γ e with ⟨A, ea⟩ | ea <;> rw [ea] at hv
      · rw [ex] at hv; cases hv
      · cases hv
    · unfold assignVal at hv
      rcases ty_st Γ e with ⟨A, ea⟩ | ea <;> rw [ea] at hv
      · rw [ex] at hv; cases hv
      · cases hv
  | f + 1, .opAssign o i e, s, s', hc, hg, hs, h, _ => by
    simp only [LStmt.exec, Option.some.injEq] at h
    obtain ⟨v, hv⟩ := storing_ret h
    exact opAssign_auto hN hn hΓ hm hs hc hg hv
  | f + 1, .inc i, s, s', hc, hg, hs, h, _ => by
    simp only [LStmt.exec, Option.some.injEq] at h
    obtain ⟨v, hv⟩ := storing_ret h
    obtain ⟨h1, h2⟩ := (opAssign_auto hN hn hΓ hm hs (inc_covered hc (Or.inl rfl)) ⟨Or.inl rfl, rfl⟩ hv).2 _ 1 rfl rfl
    exact ⟨h1, h2 _ rfl⟩
  | f + 1, .dec i, s, s', hc, hg, hs, h, _ => by
    simp only [LStmt.exec, Option.some.injEq] at h
    obtain ⟨v, hv⟩ := storing_ret h
    obtain ⟨h1, h2⟩ := (opAssign_auto hN hn hΓ hm hs (inc_covered hc (Or.inr rfl)) ⟨Or.inr (Or.inl rfl), rfl⟩ hv).2 _ 1 rfl rfl
    exact ⟨h1, h2 _ rfl⟩
  | f + 1, .input i, s, s', hc, hg, hs, h, hk => by
    exact C71_fits_partial hN Γ hΓ (f + 1) (.input i) s s' hc hs h hk
  | f + 1, .output e, s, s', hc, hg, hs, h, _ => by
    simp only [LStmt.exec] at h
    rcases ty_st Γ e with ⟨A, ea⟩ | ea <;> rw [ea] at h
    · rcases hv : e.eval Γ s.st with v | x | k
      · exact (auto_expr hN hn hΓ hm hs e hc.1 hg hv).1
      · rw [hv] at h; cases h
      · rw [hv] at h; cases h
    · cases h
  | f + 1, .seq a b, s, s', hc, hg, hs, h, hk => by
    simp only [LStmt.exec] at h
    rcases ha : a.exec Γ f s with _ | ⟨o1, s1⟩ <;> rw [ha] at h
    · cases h
    · obtain ⟨k1, k2, k3, k4⟩ := exec_fine hN hΓ f a s o1 s1 hc.1 hs ha
      rcases k1 with rfl | ⟨x, rfl⟩ | rfl
      · have h : b.exec Γ f s1 = some (.ret (), s') := h
        obtain ⟨_, _, g3, _⟩ := exec_fine hN hΓ f b s1 _ s' hc.2 k2 h
        have e1 : s1.caught = s.caught := by omega
        refine ⟨C102_fits_partial hN hn Γ hΓ hm f a s s1 hc.1 hg.1 hs ha e1, fun s2 h2 => ?_⟩
        rw [iexec_prom, k4 rfl e1] at h2
        cases h2
        exact C102_fits_partial hN hn Γ hΓ hm f b s1 s' hc.2 hg.2 k2 h (by omega)
      · cases h
      · cases h
  | f + 1, .ite c a b, s, s', hc, hg, hs, h, hk => by
    simp only [LStmt.exec] at h
    rcases cond_good hN hΓ hs c hc.1 with ⟨x, h1, h2⟩ | ⟨x, h1⟩ | h1 <;> rw [h1] at h
    · refine ⟨auto_cond hN hn hΓ hm hs c hc.1 hg.1 h1, fun h3 => ?_, fun h3 => ?_⟩ <;>
        rw [icond_prom, show (abst s).st = s.st from rfl, h2] at h3 <;> cases h3
      · exact C102_fits_partial hN hn Γ hΓ hm f a s s' hc.2.1 hg.2.1 hs h hk
      · exact C102_fits_partial hN hn Γ hΓ hm f b s s' hc.2.2 hg.2.2 hs h hk
    · cases h
    · cases h
  | f + 1, .while c a, s, s', hc, hg, hs, h, hk => by
    simp only [LStmt.exec] at h
    rcases cond_good hN hΓ hs c hc.1 with ⟨x, h1, h2⟩ | ⟨x, h1⟩ | h1 <;> rw [h1] at h
    · refine ⟨auto_cond hN hn hΓ hm hs c hc.1 hg.1 h1, fun h3 => ?_⟩
      rw [icond_prom, show (abst s).st = s.st from rfl, h2] at h3
      cases h3
      dsimp only at h
      rcases ha : a.exec Γ f s with _ | ⟨o1, s1⟩ <;> rw [ha] at h
      · cases h
      · obtain ⟨k1, k2, k3, k4⟩ := exec_fine hN hΓ f a s o1 s1 hc.2 hs ha
        rcases k1 with rfl | ⟨x, rfl⟩ | rfl
        · have h : LStmt.exec Γ f (.while c a) s1 = some (.ret (), s') := h
          obtain ⟨_, _, g3, _⟩ := exec_fine hN hΓ f (.while c a) s1 _ s' hc k2 h
          have e1 : s1.caught = s.caught := by omega
          refine ⟨C102_fits_partial hN hn Γ hΓ hm f a s s1 hc.2 hg.2 hs ha e1, fun s2 h2 => ?_⟩
          rw [iexec_prom, k4 rfl e1] at h2
          cases h2
          exact C102_fits_partial hN hn Γ hΓ hm f (.while c a) s1 s' hc hg k2 h (by omega)
        · cases h
        · cases h
    · cases h
    · cases h
  | f + 1, .tryCatch a b, s, s', hc, hg, hs, h, hk => by
    simp only [LStmt.exec] at h
    rcases ha : a.exec Γ f s with _ | ⟨o1, s1⟩ <;> rw [ha] at h
    · cases h
    · obtain ⟨k1, k2, k3, k4⟩ := exec_fine hN hΓ f a s o1 s1 hc.1 hs ha
      rcases k1 with rfl | ⟨x, rfl⟩ | rfl
      · cases h
        exact C102_fits_partial hN hn Γ hΓ hm f a s _ hc.1 hg.1 hs ha hk
      · have h : b.exec Γ f { s1 with caught := s1.caught + 1 } = some (.ret (), s') := h
        obtain ⟨_, _, g3, _⟩ := exec_fine hN hΓ f b { s1 with caught := s1.caught + 1 } _ s' hc.2 k2 h
        have g3 : s1.caught + 1 ≤ s'.caught := g3
        omega
      · cases h

/-- Whole programs: an execution under native promotion that ends without an exception, thrown or caught, is the execution under automatic
promotion: the same values of the variables, input consumed and output written. The only other possibility is that the compiler does not
accept the program with automatic promotion. -/
theorem C102_program_partial {N : Names} (hN : Careful N) (hn : Native N) {n : Nat} (Γ : Fin n → PTy N) (hΓ : GoodVars Γ)
    (hm : ∀ i, Mid (Γ i).opd) (f : Nat) (p : LStmt N n) (s s' : LState n) (hp : SCovered Γ p)
    (hp' : SCovered (fun i => promT (autoOf N) (Γ i)) (promS (autoOf N) p)) (hg : SRing p) (hs : Ranged Γ s.st) (hi : StreamOk s.inp)
    (h : p.exec Γ f s = some (.ret (), s')) (hk : s'.caught = s.caught) :
    (∃ s2, (promS (autoOf N) p).exec (fun i => promT (autoOf N) (Γ i)) f s = some (.ret (), s2) ∧ abst s2 = abst s' ∧
      s2.caught = s'.caught) ∨
    ∃ s2, (promS (autoOf N) p).exec (fun i => promT (autoOf N) (Γ i)) f s = some (.fault .illFormed, s2) := by
  have hf := C102_fits_partial hN hn Γ hΓ hm f p s s' hp hg hs h hk
  have hx := (exec_fine hN hΓ f p s _ s' hp hs h).2.2.2 rfl hk
  rcases C66_program_partial (careful_auto hN) (fun i => promT (autoOf N) (Γ i)) (good_auto hΓ) f _ s hp' hs hi hf with ⟨_, h2⟩ | ⟨s2, h1, h2, h3, _⟩ | h1
  · rw [iexec_prom, hx] at h2; cases h2
  · rw [iexec_prom, hx] at h2
    exact Or.inl ⟨s2, h1, (Option.some.inj (Option.some.inj h2)).symm, by omega⟩
  · exact Or.inr h1

/-- If the program compiles with automatic promotion, it ends in the same way. -/
theorem C102_accepted_partial {N : Names} (hN : Careful N) (hn : Native N) {n : Nat} (Γ : Fin n → PTy N) (hΓ : GoodVars Γ)
    (hm : ∀ i, Mid (Γ i).opd) (f : Nat) (p : LStmt N n) (s s' : LState n) (hp : SCovered Γ p)
    (hp' : SCovered (fun i => promT (autoOf N) (Γ i)) (promS (autoOf N) p))
    (ha : SAccepted (fun i => promT (autoOf N) (Γ i)) (promS (autoOf N) p)) (hg : SRing p) (hs : Ranged Γ s.st) (hi : StreamOk s.inp)
    (h : p.exec Γ f s = some (.ret (), s')) (hk : s'.caught = s.caught) :
    ∃ s2, (promS (autoOf N) p).exec (fun i => promT (autoOf N) (Γ i)) f s = some (.ret (), s2) ∧ abst s2 = abst s' ∧
      s2.caught = s'.caught :=
  (C102_program_partial hN hn Γ hΓ hm f p s s' hp hp' hg hs hi h hk).elim id fun ⟨s2, h2⟩ =>
    absurd h2 (C67_program_partial (careful_auto hN) (fun i => promT (autoOf N) (Γ i)) (good_auto hΓ) f _ s s2 hp' ha hs)

/-- The same for any order of evaluation: if the program ends without an exception under native promotion with its operands evaluated in
some order, then under automatic promotion it ends in every order, with the same values, input consumed and output. -/
theorem C102_order_partial {N : Names} (hN : Careful N) (hn : Native N) {n : Nat} (Γ : Fin n → PTy N) (hΓ : GoodVars Γ)
    (hm : ∀ i, Mid (Γ i).opd) (p : LStmt N n) (s s' : LState n) (hp : SCovered Γ p)
    (hp' : SCovered (fun i => promT (autoOf N) (Γ i)) (promS (autoOf N) p))
    (ha : SAccepted (fun i => promT (autoOf N) (Γ i)) (promS (autoOf N) p)) (hg : SRing p) (hs : Ranged Γ s.st) (hi : StreamOk s.inp)
    (h : AnyS Γ p s (.ret ()) s') (hk : s'.caught = s.caught) :
    ∃ s2, abst s2 = abst s' ∧ AnyS (fun i => promT (autoOf N) (Γ i)) (promS (autoOf N) p) s (.ret ()) s2 ∧
      ∀ r t, AnyS (fun i => promT (autoOf N) (Γ i)) (promS (autoOf N) p) s r t → r = .ret () ∧ t = s2 := by
  obtain ⟨k, g⟩ := (C92_quiet Γ p s s' h hk).1
  obtain ⟨s2, h1, h2, h3⟩ := C102_accepted_partial hN hn Γ hΓ hm k p s s' hp hp' ha hg hs hi (g k (Nat.le_refl k)) hk
  have he : Ends (fun i => promT (autoOf N) (Γ i)) (promS (autoOf N) p) s (.ret ()) s2 := ⟨k, fun f hf => C59_bound _ k _ s _ h1 f hf⟩
  have hany := (C92_model _ _ s).1 _ _ he
  exact ⟨s2, h2, hany, (C92_quiet _ _ s s2 hany (by omega)).2⟩

end

namespace Auto
attribute [local instance] lp64
open Widen (names careful native)

/-- an `int` and a `long` -/
abbrev Γ : Fin 2 → PTy names := Widen.Γ'

theorem mid : ∀ i, Mid (Γ i).opd
  | 0 => ⟨rfl, by decide, by decide⟩
  | 1 => ⟨rfl, by decide, by decide⟩

theorem ring : SRing Widen.squares := ⟨⟨⟨trivial, rfl⟩, ⟨Or.inl rfl, Or.inr (Or.inr rfl), trivial, trivial⟩, trivial⟩, trivial⟩

theorem covered : SCovered (fun i => promT (autoOf names) (Γ i)) (promS (autoOf names) Widen.squares) := by
  refine ⟨⟨⟨trivial, ⟨by decide, by decide⟩, fun T U hT _ => ?_⟩, ⟨⟨trivial, trivial, fun T U hT _ => ?_⟩, fun U _ => ?_⟩, rfl⟩, trivial,
    fun T hT => ?_⟩
  · cases hT; exact Or.inl (Or.inl rfl)
  · cases hT; exact ⟨Or.inl rfl, fun _ _ _ _ => trivial⟩
  · exact ⟨Or.inl rfl, fun _ _ _ _ => trivial⟩
  · cases hT; exact Or.inl rfl

-- the hypotheses hold for every execution that ends well
example (f : Nat) (s s' : LState 2) (hs : Ranged Γ s.st) (hi : StreamOk s.inp)
    (h : Widen.squares.exec Γ f s = some (.ret (), s')) (hk : s'.caught = s.caught) :
    (∃ s2, (promS (autoOf names) Widen.squares).exec (fun i => promT (autoOf names) (Γ i)) f s = some (.ret (), s2) ∧
      abst s2 = abst s' ∧ s2.caught = s'.caught) ∨
    ∃ s2, (promS (autoOf names) Widen.squares).exec (fun i => promT (autoOf names) (Γ i)) f s = some (.fault .illFormed, s2) :=
  C102_program_partial careful native Γ Widen.good' mid f Widen.squares s s' Widen.covered' covered ring hs hi h hk

-- 9 + 4 + 1, under both
example : (Widen.squares.exec Γ 20 ⟨fun | 0 => 3 | 1 => 0, ⟨[], false, false⟩, [], 0⟩).map (fun r => (r.1, r.2.out)) =
    some (.ret (), ['1', '4']) ∧
    ((promS (autoOf names) Widen.squares).exec (fun i => promT (autoOf names) (Γ i)) 20
      ⟨fun | 0 => 3 | 1 => 0, ⟨[], false, false⟩, [], 0⟩).map (fun r => (r.1, r.2.out)) = some (.ret (), ['1', '4']) := by decide +kernel

-- automatic promotion goes further: 100000 squared is an overflow in `int`
example : (Widen.squares.exec Γ 20 ⟨fun | 0 => 100000 | 1 => 0, ⟨[], false, false⟩, [], 0⟩).map (fun r => r.1) =
    some (.thrown .positive_overflow_error) ∧
    (LExpr.bin (N := promN names (autoOf names)) (.ar .mul) (.var 0) (.var 0)).eval (fun i : Fin 2 => promT (autoOf names) (Γ i))
      (fun _ => 100000) = .ret 10000000000 := by decide +kernel
end Auto

section
attribute [local instance] lp64

/-- The restrictions on the types are necessary. Two variables of a range that does not contain zero cannot be subtracted under automatic
promotion, whose result type has no room for the operands; -/
theorem C102_refuted_range :
    let e : LExpr Widen.names 1 := .bin (.ar .sub) (.var 0) (.var 0)
    let Γ : Fin 1 → PTy Widen.names := fun _ => ⟨⟨i16, 1000, 1010, .safe⟩, some (), some ()⟩
    e.eval Γ (fun _ => 1005) = .ret 0 ∧
    (promE (autoOf Widen.names) e).eval (fun i => promT (autoOf Widen.names) (Γ i)) (fun _ => 1005) =
      .thrown .positive_overflow_error := by decide +kernel

/-- and the sum of an `unsigned long` and a `signed char` is confined to `long`. -/
theorem C102_refuted_unsigned :
    let e : LExpr Widen.names 2 := .bin (.ar .add) (.var 0) (.var 1)
    let Γ : Fin 2 → PTy Widen.names := fun i => ⟨Opd.ofSafe (if i = 0 then u64 else i8), some (), some ()⟩
    e.eval Γ (fun i => if i = 0 then 9223372036854775808 else 1) = .ret 9223372036854775809 ∧
    (promE (autoOf Widen.names) e).eval (fun i => promT (autoOf Widen.names) (Γ i)) (fun i => if i = 0 then 9223372036854775808 else 1) =
      .thrown .positive_overflow_error := by decide +kernel

/-- Nor may literals of the library be used, whose range is a single value: `x + 100`, for an `x` in [-200, 1], has the range [-100, 101],
for which automatic promotion takes a `signed char`; -200 is not in it. -/
theorem C102_refuted_literal :
    let e : LExpr Widen.names 1 := .bin (.ar .add) (.var 0) (.lit ⟨⟨i8, 100, 100, .lit true⟩, some (), some ()⟩)
    let Γ : Fin 1 → PTy Widen.names := fun _ => ⟨⟨i16, -200, 1, .safe⟩, some (), some ()⟩
    Mid (Γ 0).opd ∧ e.eval Γ (fun _ => -200) = .ret (-100) ∧
    (promE (autoOf Widen.names) e).eval (fun i => promT (autoOf Widen.names) (Γ i)) (fun _ => -200) =
      .thrown .negative_overflow_error :=
  ⟨⟨rfl, by decide, by decide⟩, by decide +kernel⟩

/-- `C102_operation` on two `int`s: the product is computed and stored in a type that has room for it -/
example : ∃ R S, PP.automatic.result .mul (Opd.ofSafe i32) (Opd.ofSafe i32) = .ret R ∧
    arithTy .automatic .mul (Opd.ofSafe i32) (Opd.ofSafe i32) = .ret S ∧ R.In 10000000000 ∧ S.Has 10000000000 := by
  obtain ⟨R, S, h1, h2, _, h⟩ := C102_operation (o := .mul) (Or.inr (Or.inr rfl)) (T := Opd.ofSafe i32) (U := Opd.ofSafe i32)
    (by decide) (by decide) ⟨rfl, by decide, by decide⟩ ⟨rfl, by decide, by decide⟩
  have := (h 100000 100000 (by decide) (by decide)).2.2 (by decide)
  exact ⟨R, S, h1, h2, this⟩

end
end Verif.Props
