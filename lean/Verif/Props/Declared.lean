import Verif.Props.Auto

/-!
Property C103: the types of the variables and the promotion policies decide whether a program succeeds, not what it computes.
-/

namespace Verif.Props
open Spec Lang

section
variable [Arch]

/-- Native promotion: the base type of the result of an operator is the type that C++ prescribes for the built-in operator: for a shift the
left operand, promoted to `int` if it is narrower, whatever the count; for the other operators the common type of both operands. -/
theorem C33_types (o : Op2) (T U S : Opd) (h : Op2.safeTy .native o T U = .ret S) :
    S.base = if o = .shl ∨ o = .shr then (if T.base.lg < Arch.intLg then ⟨true, Arch.intLg⟩ else T.base)
      else uac T.base U.base := by
  have e := Out.ret.inj (safeTy_base_of h)
  rw [← e]
  cases o with
  | ar a => cases a <;> simp [opName, Arith.binOp, nativeResult]
  | bit b => cases b <;> simp [opName, Bitwise.binOp, nativeResult]
  | shl => rw [if_pos (Or.inl rfl)]; rfl
  | shr => rw [if_pos (Or.inr rfl)]; rfl

/-- Expressions: with whatever types of the variables and promotion policies (`Γ` and `Γ'` need have nothing in common), the values are the
same where there are any. -/
theorem C103_expression_partial {N : Names} {g : N.P → PP} (hN : Careful N) (hN' : Careful (promN N g)) {n : Nat} (Γ : Fin n → PTy N)
    (Γ' : Fin n → PTy (promN N g)) (hΓ : GoodVars Γ) (hΓ' : GoodVars Γ') (s : Fin n → Int) (hs : Ranged Γ s) (hs' : Ranged Γ' s)
    (e : LExpr N n) (he : ECovered Γ e) (he' : ECovered Γ' (promE g e)) (v w : Int) (h : e.eval Γ s = .ret v)
    (h' : (promE g e).eval Γ' s = .ret w) : v = w := by
  rcases eval_good hN hΓ hs e he with ⟨_, x, _, _, h3, _, h4⟩ | ⟨x, h3⟩ | h3 <;> rw [h] at h3 <;> cases h3
  rcases eval_good hN' hΓ' hs' _ he' with ⟨_, x, _, _, h5, _, h6⟩ | ⟨x, h5⟩ | h5 <;> rw [h'] at h5 <;> cases h5
  rw [ival_prom, h4] at h6
  exact Option.some.inj h6

/-- Conditions. -/
theorem C103_condition_partial {N : Names} {g : N.P → PP} (hN : Careful N) (hN' : Careful (promN N g)) {n : Nat} (Γ : Fin n → PTy N)
    (Γ' : Fin n → PTy (promN N g)) (hΓ : GoodVars Γ) (hΓ' : GoodVars Γ') (s : Fin n → Int) (hs : Ranged Γ s) (hs' : Ranged Γ' s)
    (c : LCond N n) (hc : CCovered Γ c) (hc' : CCovered Γ' (promC g c)) (a b : Bool) (h : c.eval Γ s = .ret a)
    (h' : (promC g c).eval Γ' s = .ret b) : a = b := by
  rcases cond_good hN hΓ hs c hc with ⟨x, h3, h4⟩ | ⟨x, h3⟩ | h3 <;> rw [h] at h3 <;> cases h3
  rcases cond_good hN' hΓ' hs' _ hc' with ⟨x, h5, h6⟩ | ⟨x, h5⟩ | h5 <;> rw [h'] at h5 <;> cases h5
  rw [icond_prom, h4] at h6
  exact Option.some.inj h6

/-- Whole programs: two executions that end without an exception, thrown or caught, from the same values of the variables and the same
input leave the same values, input and output, with whatever types of the variables and promotion policies. -/
theorem C103_program_partial {N : Names} {g : N.P → PP} (hN : Careful N) (hN' : Careful (promN N g)) {n : Nat} (Γ : Fin n → PTy N)
    (Γ' : Fin n → PTy (promN N g)) (hΓ : GoodVars Γ) (hΓ' : GoodVars Γ') (p : LStmt N n) (hp : SCovered Γ p)
    (hp' : SCovered Γ' (promS g p)) (s s1 s2 : LState n) (hs : Ranged Γ s.st) (hs' : Ranged Γ' s.st) (f f' : Nat)
    (h : p.exec Γ f s = some (.ret (), s1)) (h' : (promS g p).exec Γ' f' s = some (.ret (), s2)) (hk : s1.caught = s.caught)
    (hk' : s2.caught = s.caught) : abst s1 = abst s2 := by
  have e1 := (exec_fine hN hΓ _ p s _ s1 hp hs (C59_bound Γ f p s _ h (max f f') (Nat.le_max_left _ _))).2.2.2 rfl hk
  have e2 := (exec_fine hN' hΓ' _ _ s _ s2 hp' hs' (C59_bound Γ' f' _ s _ h' (max f f') (Nat.le_max_right _ _))).2.2.2 rfl hk'
  rw [iexec_prom, e1] at e2
  exact Option.some.inj (Option.some.inj e2)

/-- The same with the operands evaluated in any order, a different one in each execution. -/
theorem C103_order_partial {N : Names} {g : N.P → PP} (hN : Careful N) (hN' : Careful (promN N g)) {n : Nat} (Γ : Fin n → PTy N)
    (Γ' : Fin n → PTy (promN N g)) (hΓ : GoodVars Γ) (hΓ' : GoodVars Γ') (p : LStmt N n) (hp : SCovered Γ p)
    (hp' : SCovered Γ' (promS g p)) (s s1 s2 : LState n) (hs : Ranged Γ s.st) (hs' : Ranged Γ' s.st)
    (h : AnyS Γ p s (.ret ()) s1) (h' : AnyS Γ' (promS g p) s (.ret ()) s2) (hk : s1.caught = s.caught)
    (hk' : s2.caught = s.caught) : abst s1 = abst s2 := by
  obtain ⟨k, e⟩ := (C92_quiet Γ p s s1 h hk).1
  obtain ⟨k', e'⟩ := (C92_quiet Γ' _ s s2 h' hk').1
  exact C103_program_partial hN hN' Γ Γ' hΓ hΓ' p hp hp' s s1 s2 hs hs' k k' (e k (Nat.le_refl _)) (e' k' (Nat.le_refl _)) hk hk'

/-- Hence every difference is reported: if one execution ends without an exception, then each execution of the same program with other
types and policies that comes to an end leaves the same values, or has thrown or caught an exception, or the compiler rejects an
operation. -/
theorem C103_reported_partial {N : Names} {g : N.P → PP} (hN : Careful N) (hN' : Careful (promN N g)) {n : Nat} (Γ : Fin n → PTy N)
    (Γ' : Fin n → PTy (promN N g)) (hΓ : GoodVars Γ) (hΓ' : GoodVars Γ') (p : LStmt N n) (hp : SCovered Γ p)
    (hp' : SCovered Γ' (promS g p)) (s s1 s2 : LState n) (r : Out Unit) (hs : Ranged Γ s.st) (hs' : Ranged Γ' s.st) (f f' : Nat)
    (h : p.exec Γ f s = some (.ret (), s1)) (hk : s1.caught = s.caught) (h' : (promS g p).exec Γ' f' s = some (r, s2)) :
    (r = .ret () ∧ abst s2 = abst s1) ∨ s.caught < s2.caught ∨ (∃ e, r = .thrown e) ∨ r = .fault .illFormed := by
  obtain ⟨k1, _, k3, _⟩ := exec_fine hN' hΓ' f' _ s r s2 hp' hs' h'
  rcases k1 with rfl | ⟨e, rfl⟩ | rfl
  · rcases Nat.lt_or_ge s.caught s2.caught with k | k
    · exact Or.inr (Or.inl k)
    · exact Or.inl ⟨rfl, (C103_program_partial hN hN' Γ Γ' hΓ hΓ' p hp hp' s s1 s2 hs hs' f f' h h' hk (by omega)).symm⟩
  · exact Or.inr (Or.inr (Or.inl ⟨e, rfl⟩))
  · exact Or.inr (Or.inr (Or.inr rfl))

end

namespace Declared
attribute [local instance] lp64

-- `C33_types`: `short << long` is an `int`, `short + long` a `long`
example : (Op2.safeTy .native .shl (Opd.ofSafe i16) (Opd.range i64 0 3) >>= fun S => .ret S.base) = .ret i32 ∧
    (Op2.safeTy .native (.ar .add) (Opd.ofSafe i16) (Opd.range i64 0 3) >>= fun S => .ret S.base) = .ret i64 := by decide +kernel

open Widen (names careful native)

/-- the program of `Widen`, with `unsigned char` and `short` under native promotion and `int` and `long` under automatic promotion -/
example (s s1 s2 : LState 2) (hs : Ranged Widen.Γ s.st) (f f' : Nat) (h : Widen.squares.exec Widen.Γ f s = some (.ret (), s1))
    (h' : (promS (autoOf names) Widen.squares).exec (fun i => promT (autoOf names) (Widen.Γ' i)) f' s = some (.ret (), s2))
    (hk : s1.caught = s.caught) (hk' : s2.caught = s.caught) : abst s1 = abst s2 :=
  C103_program_partial careful (careful_auto careful) Widen.Γ (fun i => promT (autoOf names) (Widen.Γ' i)) Widen.good (good_auto Widen.good')
    Widen.squares Widen.covered Auto.covered s s1 s2 hs
    (fun i => ⟨Int.le_trans (Widen.widens i).low (hs i).1, Int.le_trans (hs i).2 (Widen.widens i).high⟩) f f' h h' hk hk'

-- both end, with 9 + 4 + 1
example :
    (Widen.squares.exec Widen.Γ 20 ⟨fun | 0 => 3 | 1 => 0, ⟨[], false, false⟩, [], 0⟩).map (fun r => (r.1, r.2.out, r.2.caught)) =
      some (.ret (), ['1', '4'], 0) ∧
    ((promS (autoOf names) Widen.squares).exec (fun i => promT (autoOf names) (Widen.Γ' i)) 20
      ⟨fun | 0 => 3 | 1 => 0, ⟨[], false, false⟩, [], 0⟩).map (fun r => (r.1, r.2.out, r.2.caught)) = some (.ret (), ['1', '4'], 0) := by
  decide +kernel

/-- errors of arithmetic are ignored -/
@[reducible] def loose : Names :=
  ⟨Unit, Unit, inferInstance, inferInstance, fun _ => .native, fun _ => ⟨.ignore, .ignore, .ignore, .ignore⟩⟩
end Declared

section
attribute [local instance] lp64

/-- With handlers the two executions may differ, as one of them may have caught an exception: `try { std::cout << x * x; } catch (...)
{ std::cout << x; }`. -/
theorem C103_refuted_caught :
    let p : LStmt Widen.names 1 := .tryCatch (.output (.bin (.ar .mul) (.var 0) (.var 0))) (.output (.var 0))
    let Γ : Fin 1 → PTy Widen.names := fun _ => ⟨Opd.ofSafe i32, some (), some ()⟩
    let s : LState 1 := ⟨fun _ => 100000, ⟨[], false, false⟩, [], 0⟩
    (p.exec Γ 9 s).map (fun r => (r.1, r.2.out)) = some (.ret (), "100000".toList) ∧
    ((promS (autoOf Widen.names) p).exec (fun i => promT (autoOf Widen.names) (Γ i)) 9 s).map (fun r => (r.1, r.2.out)) =
      some (.ret (), "10000000000".toList) := by decide +kernel

/-- With a policy that ignores errors the promotion policy decides what is computed. -/
theorem C103_refuted_ignored :
    let e : LExpr Declared.loose 1 := .bin (.ar .mul) (.var 0) (.const i32 2)
    let Γ : Fin 1 → PTy Declared.loose := fun _ => ⟨Opd.ofSafe u32, some (), some ()⟩
    ∃ v, e.eval Γ (fun _ => 4000000000) = .ret v ∧
    (promE (autoOf Declared.loose) e).eval (fun i => promT (autoOf Declared.loose) (Γ i)) (fun _ => 4000000000) = .ret 8000000000 ∧
      v ≠ 8000000000 := by
  refine ⟨3705032704, ?_⟩
  decide +kernel

end
end Verif.Props
