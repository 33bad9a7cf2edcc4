import Verif.Proofs.Ignore
import Verif.Proofs.Bounds
import Verif.Proofs.Promotion
import Verif.SafeSpec

/-!
Properties C53, C54, C55: policies that ignore errors, and default construction.
-/

namespace Verif.Props
open Spec
section
variable [Arch]

omit [Arch] in
private theorem notLit {T : Opd} (h : NotLit T) : ∀ b, T.kind ≠ .lit b := by
  intro b hb; rcases h with h | h <;> rw [h] at hb <;> cases hb

private theorem promote_uac (T U : ITy) : promote (uac T U) = uac T U := by
  unfold uac
  dsimp only
  split_ifs <;> exact promote_promote _

/-! ### C53 arithmetic with an ignoring policy -/

/-- With a policy that ignores arithmetic errors, `+` and `*` in the result type `R` are the built-in operators on the
operands converted to `R`, with their wrap-around and their undefined behaviour; the result is converted to `R`.
Operands of safe types have to be values of `R`. -/
theorem C53_arith_partial (pp : PP) (p : EP) (hp : p.ae = .ignore) (o : Arith) (ho : o = .add ∨ o = .mul)
    (T U : Opd) (hT : T.Wf) (hU : U.Wf) (nT : NotLit T) (nU : NotLit U) (R : ITy) (hR : R.Ok)
    (hres : pp.result o.binOp T U = .ret R) (t u : Int) (ht : T.Has t) (hu : U.Has u)
    (h1 : T.kind = .builtin ∨ R.In t) (h2 : U.kind = .builtin ∨ R.In u) :
    arith pp p o T U t u = (do
      let v ← builtin o R R (conv R t) (conv R u)
      .ret (conv R v)) := by
  have l1 := litOk_not_lit (R := R) (notLit nT)
  have l2 := litOk_not_lit (R := R) (notLit nU)
  unfold arith
  rw [hres, Out.ret_bind]
  rcases ho with rfl | rfl
  · exact runAdd_ignore hp hT hU ht hu l1 l2 h1 h2
  · exact runMul_ignore hp hR hT hU ht hu l1 l2 h1 h2

/-- Native promotion: `+`, `*` and `/` with an ignoring policy are the built-in expressions. -/
theorem C53_native_partial (p : EP) (hp : p.ae = .ignore) (o : Arith) (ho : o = .add ∨ o = .mul ∨ o = .div)
    (T U : Opd) (hT : T.Wf) (hU : U.Wf) (nT : NotLit T) (nU : NotLit U) (t u : Int) (ht : T.Has t) (hu : U.Has u)
    (h1 : T.kind = .builtin ∨ (uac T.base U.base).In t) (h2 : U.kind = .builtin ∨ (uac T.base U.base).In u) :
    arith .native p o T U t u = builtin o T.base U.base t u := by
  have hR := uac_ok hT.1 hU.1
  have e1 : uac (uac T.base U.base) (uac T.base U.base) = uac T.base U.base := by rw [uac_self, promote_uac]
  have w : ∀ x, (do let v ← cWrap (uac T.base U.base) x; Out.ret (conv (uac T.base U.base) v)) =
      cWrap (uac T.base U.base) x := by
    intro x
    rcases hx : cWrap (uac T.base U.base) x with v | e | k
    · rw [Out.ret_bind, conv_of_in (cWrap_ret_in hx)]
    · rfl
    · rfl
  rcases ho with rfl | rfl | rfl
  · rw [C53_arith_partial .native p hp .add (Or.inl rfl) T U hT hU nT nU _ hR rfl t u ht hu h1 h2]
    show (do let v ← cAdd _ _ _ _; Out.ret (conv (uac T.base U.base) v)) = cAdd _ _ _ _
    unfold cAdd
    rw [e1, conv_idem, conv_idem]; exact w _
  · rw [C53_arith_partial .native p hp .mul (Or.inr rfl) T U hT hU nT nU _ hR rfl t u ht hu h1 h2]
    show (do let v ← cMul _ _ _ _; Out.ret (conv (uac T.base U.base) v)) = cMul _ _ _ _
    unfold cMul
    rw [e1, conv_idem, conv_idem]; exact w _
  · show runDiv p (uac T.base U.base) T U t u = cDiv _ _ _ _
    rw [runDiv_ignore hp hR hT hU (native_fits hT hU).2
      (tempBase_self hR (uac_digits_left _ _) (uac_digits_right _ _)) (promote_uac _ _)
      (litOk_not_lit (notLit nT)) (litOk_not_lit (notLit nU)) ht hu h1 h2]
    unfold cDiv
    rw [e1, conv_idem, conv_idem]

/-- `-` with an ignoring policy is exact when the difference is a value of `R`. -/
theorem C53_sub_partial (pp : PP) (p : EP) (hp : p.ae = .ignore)
    (T U : Opd) (hT : T.Wf) (hU : U.Wf) (R : ITy)
    (hres : pp.result .sub T U = .ret R) (t u : Int) (ht : T.Has t) (hu : U.Has u)
    (h1 : R.In t) (h2 : R.In u) (h3 : R.In (t - u)) :
    arith pp p .sub T U t u = .ret (t - u) := by
  unfold arith
  rw [show Arith.sub.binOp = .sub from rfl, hres, Out.ret_bind]
  refine (runSub_ignore hp hT hU ht hu (litOk_value hT ht h1) (litOk_value hU hu h2) (Or.inr h1) (Or.inr h2)).trans ?_
  rw [conv_of_in h1, conv_of_in h2, if_pos h3]

/-- When the difference is not a value of the unsigned type `R`, the ignored subtraction yields the (wrapped) sum instead
of the wrapped difference. -/
theorem C53_sub_adds_refuted (pp : PP) (p : EP) (hp : p.ae = .ignore)
    (T U : Opd) (hT : T.Wf) (hU : U.Wf) (R : ITy)
    (hres : pp.result .sub T U = .ret R) (t u : Int) (ht : T.Has t) (hu : U.Has u)
    (h1 : R.In t) (h2 : R.In u) (h3 : ¬ R.In (t - u)) :
    arith pp p .sub T U t u = (do
      let v ← builtin .add R R t u
      .ret (conv R v)) := by
  unfold arith
  rw [show Arith.sub.binOp = .sub from rfl, hres, Out.ret_bind]
  refine (runSub_ignore hp hT hU ht hu (litOk_value hT ht h1) (litOk_value hU hu h2) (Or.inr h1) (Or.inr h2)).trans ?_
  rw [conv_of_in h1, conv_of_in h2, if_neg h3]; rfl

/-! ### C54 conversion with an ignoring policy -/

/-- Constructing, assigning or casting with an ignoring policy keeps every value that the safe type has. -/
theorem C54_keeps_partial (p : EP) (hp : p.ae = .ignore) (S T : Opd) (hS : S.Wf) (hT : T.Wf) (t : Int) (ht : T.Has t)
    (h : S.Has t) : construct p S T t = .ret t := by
  unfold construct
  split
  · rfl
  · rw [validate_eq hS.2.1 hS.2.2.1 hT ht]
    rw [if_neg (fun he => by
      have := exclStatic_sound hS.2.1 hS.2.2.1 he
      have := h.1; have := h.2; have := ht.1; have := ht.2; omega)]
    rw [hp]
    dsimp only
    rw [if_pos (show S.lo ≤ t ∧ t ≤ S.hi from h)]
    split <;> rfl

/-- For a value that the safe type does not have the ignoring policy never yields a value: the conversion reads a union
member that was never written (undefined behaviour), or the program does not compile. -/
theorem C54_ub_refuted (p : EP) (hp : p.ae = .ignore) (S T : Opd) (hS : S.Wf) (hT : T.Wf) (t : Int) (ht : T.Has t)
    (h : ¬ S.Has t) : construct p S T t = .fault .ub ∨ construct p S T t = .fault .illFormed := by
  unfold construct
  split
  · rename_i e; subst e; exact absurd ht h
  · rw [validate_eq hS.2.1 hS.2.2.1 hT ht]
    split
    · exact Or.inr rfl
    · rw [if_neg (fun he => by
        have := inclStatic_sound hS.2.1 hS.2.2.1 he
        apply h; have := ht.1; have := ht.2; exact ⟨by omega, by omega⟩)]
      rw [hp]
      dsimp only
      rw [if_neg (show ¬ (S.lo ≤ t ∧ t ≤ S.hi) from h)]
      exact Or.inl rfl

/-! ### C55 default construction -/

omit [Arch] in
/-- Default construction throws if the policy throws on uninitialised values, does not compile if it traps them, and
otherwise succeeds with an indeterminate value. -/
theorem C55_default_partial (p : EP) :
    (p.uv = .throw → defaultConstruct p = .thrown .uninitialized_value) ∧
    (p.uv = .trap → defaultConstruct p = .fault .illFormed) ∧
    (p.uv = .ignore → defaultConstruct p = .ret none) := by
  refine ⟨fun h => ?_, fun h => ?_, fun h => ?_⟩ <;>
    simp [defaultConstruct, EP.traps, dispatch, EP.act, makeAction, h, Act.run]

end

section
attribute [local instance] lp64

/-- a policy that ignores arithmetic errors -/
def ignoring : EP := ⟨.ignore, .ignore, .ignore, .ignore⟩

/-- `safe<unsigned>(1) - safe<unsigned>(2)` gives 3; the built-in expression gives 4294967295. `safe<int>(-1) + 5u` is
undefined; the built-in expression gives 4. -/
theorem C53_refuted :
    arith .native ignoring .sub (Opd.ofSafe u32) (Opd.ofSafe u32) 1 2 = .ret 3 ∧
    builtin .sub u32 u32 1 2 = .ret 4294967295 ∧
    arith .native ignoring .add (Opd.ofSafe i32) (Opd.ofBuiltin u32) (-1) 5 = .fault .ub ∧
    builtin .add i32 u32 (-1) 5 = .ret 4 := by decide +kernel

/-- The value 300 stored in a `safe_unsigned_range<0, 100>`, and `safe<signed char>(200)`. -/
theorem C54_refuted :
    construct ignoring (Opd.range u8 0 100) (Opd.ofBuiltin i32) 300 = .fault .ub ∧
    construct ignoring (Opd.ofSafe i8) (Opd.ofBuiltin i32) 200 = .fault .ub := by decide +kernel

/-- The strict policy, which is the default, says nothing about uninitialised values: `safe<int> x;` compiles and leaves
`x` indeterminate. -/
theorem C55_refuted : defaultConstruct strictException = .ret none ∧ defaultConstruct defaultException = .ret none := by
  decide +kernel

-- non-trivial instances of the hypotheses
example : arith .native ignoring .add (Opd.ofSafe u32) (Opd.ofSafe u32) 4294967295 2 = .ret 1 ∧
    builtin .add u32 u32 4294967295 2 = .ret 1 := by decide +kernel
example : arith .native ignoring .mul (Opd.ofSafe i32) (Opd.ofSafe i32) 65536 65536 = .fault .ub := by decide +kernel
example : arith .native ignoring .add (Opd.ofSafe u32) (Opd.ofBuiltin i32) 5 (-1) = .ret 4 := by decide +kernel
example : arith .native ignoring .div (Opd.ofSafe i32) (Opd.ofSafe i32) 7 0 = .fault .ub := by decide +kernel
example : arith .native ignoring .div (Opd.ofSafe i32) (Opd.ofSafe i32) (-7) 2 = .ret (-3) := by decide +kernel
example : PP.automatic.result .add (Opd.range i8 0 100) (Opd.range i8 0 20) = .ret i8 ∧
    arith .automatic ignoring .add (Opd.range i8 0 100) (Opd.range i8 0 20) 100 20 = .ret 120 := by decide +kernel
example : construct ignoring (Opd.range u8 0 100) (Opd.ofBuiltin i32) 77 = .ret 77 := by decide +kernel
example : defaultConstruct strictTrap = .fault .illFormed ∧
    defaultConstruct ⟨.throw, .throw, .throw, .throw⟩ = .thrown .uninitialized_value := by decide +kernel
end

end Verif.Props
