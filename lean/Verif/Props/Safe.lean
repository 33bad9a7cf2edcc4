import Verif.SafeSpec
import Verif.Proofs.Promotion

/-!
Properties C21, C22, C23, C28, C30, C41, C47, C48: construction, conversion, `+`, `-`, `*` and comparison of safe
integers.
-/

namespace Verif.Props
open Spec
section
variable [Arch]

omit [Arch] in
private theorem notLit {T : Opd} (h : NotLit T) : ∀ b, T.kind ≠ .lit b := by
  intro b hb; rcases h with h | h <;> rw [h] at hb <;> cases hb

private theorem litsOk {R : ITy} {T U : Opd} (hT : NotLit T) (hU : NotLit U) : LitsOk R T U :=
  ⟨litOk_not_lit (notLit hT), litOk_not_lit (notLit hU)⟩

/-! ### C21 construction and assignment -/

/-- Construction of a safe value (type `S`) from a value `t` of any built-in or safe type `T`: the value is kept and is
in range, or an exception is thrown and it was not in range, or the program does not compile. -/
theorem C21_construct (p : EP) (hp : p.ae = .throw) (S T : Opd) (hS : S.Wf) (hT : T.Wf) (t : Int) (ht : T.Has t) :
    (construct p S T t = .ret t ∧ S.Has t) ∨ ((∃ e, construct p S T t = .thrown e) ∧ ¬ S.Has t) ∨
    construct p S T t = .fault .illFormed := by
  unfold construct
  split
  · rename_i h; subst h; exact Or.inl ⟨rfl, ht⟩
  · rw [validate_eq hS.2.1 hS.2.2.1 hT ht, hp]
    split
    · exact Or.inr (Or.inr rfl)
    · split
      · rename_i h
        have := inclStatic_sound hS.2.1 hS.2.2.1 h
        have h1 := ht.1; have h2 := ht.2
        exact Or.inl ⟨rfl, by omega, by omega⟩
      · dsimp only
        split
        · rename_i h; exact Or.inl ⟨rfl, h⟩
        · rename_i h; exact Or.inr (Or.inl ⟨⟨_, rfl⟩, h⟩)

/-- The compiler rejects a construction only if no value of the source type is in range, and then for every value. -/
theorem C21_rejected (p : EP) (hp : p.ae = .throw) (S T : Opd) (hS : S.Wf) (hT : T.Wf) (t : Int) (ht : T.Has t)
    (h : construct p S T t = .fault .illFormed) :
    ∀ x, T.Has x → ¬ S.Has x ∧ construct p S T x = .fault .illFormed := by
  unfold construct at *
  split at h
  · cases h
  · rename_i hne
    rw [validate_eq hS.2.1 hS.2.2.1 hT ht, hp] at h
    split at h
    · rename_i hx
      intro x hx'
      rw [if_neg hne, validate_eq hS.2.1 hS.2.2.1 hT hx', if_pos hx]
      refine ⟨?_, rfl⟩
      have := exclStatic_sound hS.2.1 hS.2.2.1 hx
      rintro ⟨h1, h2⟩; have := hx'.1; have := hx'.2; omega
    · split at h
      · cases h
      · dsimp only at h; split at h <;> cases h

/-- Whatever the policy (throwing, ignoring, trapping or written by the user): a construction that returns keeps the value and the value is in
range. A check that the compiler leaves out could not have failed. -/
theorem C21_any_policy (p : EP) (S T : Opd) (hS : S.Wf) (hT : T.Wf) (t v : Int) (ht : T.Has t)
    (h : construct p S T t = .ret v) : v = t ∧ S.Has t := by
  unfold construct at h
  split at h
  · rename_i h'; subst h'; cases h; exact ⟨rfl, ht⟩
  · rw [validate_eq hS.2.1 hS.2.2.1 hT ht] at h
    split at h
    · cases h
    · split at h
      · rename_i hi
        have := inclStatic_sound hS.2.1 hS.2.2.1 hi
        have h1 := ht.1; have h2 := ht.2
        cases h; exact ⟨rfl, by omega, by omega⟩
      · split at h
        · cases h
        · split at h
          · rename_i hb; cases h; exact ⟨rfl, hb⟩
          · cases h
        · split at h
          · rename_i hb; cases h; exact ⟨rfl, hb⟩
          · cases h
        · split at h
          · rename_i hb; cases h; exact ⟨rfl, hb⟩
          · split_ifs at h

/-! ### C22 conversion to a built-in type -/

/-- `static_cast` of a safe value to a built-in type: exact if representable, else an exception; always compiles. -/
theorem C22_toBuiltin (p : EP) (hp : p.ae = .throw) (R : ITy) (T : Opd) (hT : T.Wf) (t : Int)
    (ht : T.Has t) :
    (R.In t → toBuiltin p R T t = .ret t) ∧ (¬ R.In t → ∃ e, toBuiltin p R T t = .thrown e) := by
  have tin := hT.has_in ht
  have wf : (Opd.ofBuiltin T.base).Wf :=
    ⟨hT.1, T.base.in_min, T.base.in_max, T.base.min_le_max, fun _ => ⟨rfl, rfl⟩, fun b hb => by cases hb⟩
  have nex : exclStatic R R.min R.max (Opd.ofBuiltin T.base) = false := by
    by_contra h
    have := exclStatic_sound R.in_min R.in_max (by simpa using h)
    have h1 := R.min_nonpos; have h2 := R.max_ge
    have h3 := T.base.min_nonpos; have h4 := T.base.max_ge
    change R.max < T.base.min ∨ T.base.max < R.min at this
    omega
  have c1 := conv_in R T.lo; have c2 := conv_in R T.hi
  have nx : ((⟨R.min, R.max⟩ : Itv Int).excludes (intCmp R) ⟨conv R T.lo, conv R T.hi⟩).toBool = false := by
    by_contra h
    have h := (Bool.not_eq_false _).mp h
    change ((T3.ofBool (cLt R R (conv R T.hi) R.min)).or (T3.ofBool (cLt R R R.max (conv R T.lo)))).toBool = true at h
    rw [cLt_eq (in_uac_self c2) (in_uac_self R.in_min), cLt_eq (in_uac_self R.in_max) (in_uac_self c1)] at h
    have := c1.2; have := c2.1
    rw [decide_eq_false (by omega), decide_eq_false (by omega)] at h
    cases h
  unfold toBuiltin
  rw [if_neg (by rw [nx]; decide), validate_eq R.in_min R.in_max wf tin, hp, if_neg (by rw [nex]; decide)]
  constructor
  · intro h
    split
    · rfl
    · dsimp only; rw [if_pos (show R.min ≤ t ∧ t ≤ R.max from h)]
  · intro h
    split
    · rename_i hi
      have := inclStatic_sound R.in_min R.in_max hi
      have h1 := tin.1; have h2 := tin.2
      change R.min ≤ T.base.min ∧ T.base.max ≤ R.max at this
      exact absurd ⟨by omega, by omega⟩ h
    · dsimp only; rw [if_neg (show ¬ (R.min ≤ t ∧ t ≤ R.max) from h)]; exact ⟨_, rfl⟩

end

section
attribute [local instance] lp64

/-- `safe_signed_range<-10, 100>` in `int8_t` from an `int`: in range, out of range, and from a type with a disjoint
range -/
example : construct strictException (Opd.range i8 (-10) 100) (Opd.ofBuiltin i32) 77 = .ret 77 := by decide
example : construct strictException (Opd.range i8 (-10) 100) (Opd.ofBuiltin i32) 300 =
    .thrown .positive_overflow_error := by decide
example : construct strictException (Opd.range i8 (-10) 100) (Opd.range i32 200 300) 222 =
    .fault .illFormed := by decide
example : toBuiltin strictException u8 (Opd.ofSafe i32) 255 = .ret 255 ∧
    toBuiltin strictException u8 (Opd.ofSafe i32) (-1) = .thrown .domain_error := by decide
end

section
variable [Arch]

/-! ### C23 addition, subtraction, multiplication -/

omit [Arch] in
private theorem exactIn_exact (R : ITy) (t u v : Int) : ExactOrThrows (exactIn R t u v) v := by
  unfold exactIn
  split
  · exact Or.inr (Or.inl ⟨_, rfl⟩)
  · exact Or.inr (Or.inl ⟨_, rfl⟩)
  · unfold orThrow exactOr
    split_ifs
    · exact Or.inr (Or.inl ⟨_, rfl⟩)
    · exact Or.inr (Or.inl ⟨_, rfl⟩)
    · exact Or.inl rfl

/-- For every promotion policy, with a throwing exception policy: `a + b`, `a - b`, `a * b` are exact, throw, or do not
compile. -/
theorem C23_exact (pp : PP) (hpp : pp.Wf) (p : EP) (hp : p.ae = .throw) (o : Arith)
    (ho : o = .add ∨ o = .sub ∨ o = .mul) (T U : Opd) (hT : T.Wf) (hU : U.Wf) (t u : Int) (ht : T.Has t)
    (hu : U.Has u) : ExactOrThrows (arith pp p o T U t u) (math o t u) := by
  unfold arith
  rcases PP.result_total hpp (op := o.binOp) (by rcases ho with rfl | rfl | rfl <;> decide) hT hU with
    ⟨R, e, hR⟩ | e
  · rw [e, Out.ret_bind]
    rcases ho with rfl | rfl | rfl
    · show ExactOrThrows (runOp opAdd p R T U t u) (t + u)
      rw [runAdd_throw hp hT hU ht hu]
      split
      · exact Or.inr (Or.inr rfl)
      · exact exactIn_exact _ _ _ _
    · show ExactOrThrows (runOp opSub p R T U t u) (t - u)
      rw [runSub_throw hp hT hU ht hu]
      split
      · exact Or.inr (Or.inr rfl)
      · exact exactIn_exact _ _ _ _
    · show ExactOrThrows (runOp opMul p R T U t u) (t * u)
      rw [runMul_throw hp hR hT hU ht hu]
      split
      · split
        · exact exactIn_exact _ _ _ _
        · exact Or.inr (Or.inr rfl)
      · exact Or.inl rfl
  · rw [e]; exact Or.inr (Or.inr rfl)

/-- With operands that are not literals, once the policy has given the type `R`, the program compiles, and `+` and `-`
are: convert the operands to `R`, then the exact result or overflow. For `*` there is one deviation: an operand whose
static range is `[0, 0]` makes the result `0` although the other operand may not be representable in `R`. -/
theorem C23_policy (pp : PP) (p : EP) (hp : p.ae = .throw) (o : Arith)
    (ho : o = .add ∨ o = .sub ∨ o = .mul) (T U : Opd) (hT : T.Wf) (hU : U.Wf) (nT : NotLit T) (nU : NotLit U)
    (R : ITy) (hR : R.Ok) (hres : pp.result o.binOp T U = .ret R) (t u : Int) (ht : T.Has t) (hu : U.Has u) :
    arith pp p o T U t u = exactIn R t u (math o t u) ∨
    (o = .mul ∧ ((T.lo = 0 ∧ T.hi = 0) ∨ (U.lo = 0 ∧ U.hi = 0)) ∧ arith pp p o T U t u = .ret 0) := by
  unfold arith
  rw [hres, Out.ret_bind]
  have l : LitsOk R T U := litsOk nT nU
  rcases ho with rfl | rfl | rfl
  · left
    show runOp opAdd p R T U t u = _
    rw [runAdd_throw hp hT hU ht hu, if_neg (fun h => h.2 l)]; rfl
  · left
    show runOp opSub p R T U t u = _
    rw [runSub_throw hp hT hU ht hu, if_neg (fun h => h.2 l)]; rfl
  · show runOp opMul p R T U t u = _ ∨ _ ∧ _ ∧ runOp opMul p R T U t u = _
    rw [runMul_throw hp hR hT hU ht hu, if_pos l]
    split
    · exact Or.inl rfl
    · rename_i h
      rcases mul_static hR hT hU (by simpa using h) ht hu with g | g | g
      · left; exact (exactIn_of_in g.1 g.2.1 g.2.2).symm
      · have : t = 0 := by have := ht.1; have := ht.2; have := g.1; have := g.2; omega
        exact Or.inr ⟨rfl, Or.inl g, by rw [this]; simp⟩
      · have : u = 0 := by have := hu.1; have := hu.2; have := g.1; have := g.2; omega
        exact Or.inr ⟨rfl, Or.inr g, by rw [this]; simp⟩

/-- Native promotion: `a op b` has the type of the built-in expression and throws exactly when an operand or the exact
result is not representable in it. -/
theorem C23_native (p : EP) (hp : p.ae = .throw) (o : Arith)
    (ho : o = .add ∨ o = .sub ∨ o = .mul) (T U : Opd) (hT : T.Wf) (hU : U.Wf) (nT : NotLit T) (nU : NotLit U)
    (t u : Int) (ht : T.Has t) (hu : U.Has u) :
    arith .native p o T U t u = exactIn (uac T.base U.base) t u (math o t u) := by
  have hR := uac_ok hT.1 hU.1
  have hres : PP.native.result o.binOp T U = .ret (uac T.base U.base) := by rcases ho with rfl | rfl | rfl <;> rfl
  rcases C23_policy .native p hp o ho T U hT hU nT nU _ hR hres t u ht hu with h | ⟨rfl, hz, h⟩
  · exact h
  · -- an operand with range [0, 0]
    have hm : math .mul t u = 0 := by
      have h1 := ht.1; have h2 := ht.2; have h3 := hu.1; have h4 := hu.2
      rcases hz with hz | hz
      · obtain rfl : t = 0 := by omega
        exact Int.zero_mul u
      · obtain rfl : u = 0 := by omega
        exact Int.mul_zero t
    by_cases hb : (uac T.base U.base).In t ∧ (uac T.base U.base).In u
    · rw [h, hm, exactIn_of_in hb.1 hb.2 (ITy.in_zero _)]
    · -- impossible: a check would have been made
      exfalso
      obtain ⟨f1, f2⟩ := native_fits hT hU
      obtain ⟨ri, e, p1, _, hv, _⟩ := mul_held hR hT hU
      have vg : Vague (castTo (uac T.base U.base) T.lo) ∨ Vague (castTo (uac T.base U.base) U.lo) := by
        by_contra hn
        have q1 := f1.in_of_nonvague hT.2.2.2.1 (fun g => hn (Or.inl g))
        have q2 := f2.in_of_nonvague hU.2.2.2.1 (fun g => hn (Or.inr g))
        exact hb ⟨in_between q1 ht, in_between q2 hu⟩
      have st : staticExc opMul (uac T.base U.base) T U = true := by
        unfold staticExc
        change (match resItv itvMul _ T U with | .ret ri => _ | _ => _) = _
        rw [e]
        show excPossible _ ri = true
        unfold excPossible
        rw [exc_of_vague (hv vg).1 (fun _ _ => trivial) _ p1]; simp
      have h' : runOp opMul p (uac T.base U.base) T U t u = .ret 0 := h
      rw [runMul_throw hp hR hT hU ht hu, if_pos st, if_pos (litsOk nT nU)] at h'
      have : (uac T.base U.base).In t ∧ (uac T.base U.base).In u := by
        unfold exactIn at h'
        split at h'
        · cases h'
        · cases h'
        · rename_i a b ha hb
          exact ⟨(castTo_ok ha).2, (castTo_ok hb).2⟩
      exact hb this

end

section
attribute [local instance] lp64

/-- `safe<int> + safe<int>` close to overflow; `safe<int> - unsigned`; automatic promotion of a product that does not
fit `int` -/
example : arith .native strictException .add (Opd.ofSafe i32) (Opd.ofSafe i32) 2147483647 1 =
    .thrown .positive_overflow_error := by decide +kernel
example : arith .native strictException .sub (Opd.ofSafe i32) (Opd.ofBuiltin u32) 5 7 =
    .thrown .negative_overflow_error := by decide +kernel
example : arith .automatic strictException .mul (Opd.ofSafe i32) (Opd.ofSafe i32) 2147483647 2147483647 =
    .ret 4611686014132420609 := by decide +kernel
/-- the deviation of `C23_policy` occurs with automatic promotion -/
example : arith .automatic strictException .mul (Opd.range i32 0 0) (Opd.range i32 1000 2000) 0 1500 = .ret 0 ∧
    PP.automatic.result .mul (Opd.range i32 0 0) (Opd.range i32 1000 2000) = .ret i8 := by decide +kernel
end
end Verif.Props
