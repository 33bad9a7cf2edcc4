import Verif.Props.SafeDiv
import Verif.Proofs.Bounds

/-!
Properties C29, C31, C33: the types of results.
-/

namespace Verif.Props
open Spec
section
variable [Arch]

omit [Arch] in
private theorem ret_bind {α β : Type} (a : α) (f : α → Out β) : (Out.ret a >>= f) = f a := rfl

/-! ### C29 advertised bounds -/

/-- `+`, `-`, `*` with a policy that throws or traps on arithmetic errors, any promotion policy: if the operation returns
`v`, then its safe type exists, is a proper safe type, and its bounds contain `v`. -/
theorem C29_arith (pp : PP) (hpp : pp.Wf) (p : EP) (hp : p.ae = .throw ∨ p.ae = .trap) (o : Arith)
    (ho : o = .add ∨ o = .sub ∨ o = .mul) (T U : Opd) (hT : T.Wf) (hU : U.Wf) (t u v : Int) (ht : T.Has t)
    (hu : U.Has u) (hv : arith pp p o T U t u = .ret v) :
    ∃ S, arithTy pp o T U = .ret S ∧ S.Wf ∧ S.kind = .safe ∧ S.Has v := by
  unfold arith at hv
  unfold arithTy
  rcases PP.result_total hpp (op := o.binOp) (by rcases ho with rfl | rfl | rfl <;> decide) hT hU with
    ⟨R, e, hR⟩ | e
  · rw [e, ret_bind] at hv
    rw [e, ret_bind]
    rcases ho with rfl | rfl | rfl
    · obtain ⟨rfl, hi⟩ := runAdd_ret hp hT hU ht hu hv
      obtain ⟨ri, e', p1, p2, h⟩ := add_held R hT hU
      obtain ⟨S, h1, h2, h3, _, h4⟩ := resTy_has hR e' p1 p2 (h t u ht hu) hi
      exact ⟨S, h1, h2, h3, h4⟩
    · obtain ⟨rfl, hi⟩ := runSub_ret hp hT hU ht hu hv
      obtain ⟨ri, e', p1, p2, h⟩ := sub_held R hT hU
      obtain ⟨S, h1, h2, h3, _, h4⟩ := resTy_has hR e' p1 p2 (h t u ht hu) hi
      exact ⟨S, h1, h2, h3, h4⟩
    · obtain ⟨rfl, hi⟩ := runMul_ret hp hR hT hU ht hu hv
      obtain ⟨ri, e', p1, p2, _, h⟩ := mul_held hR hT hU
      obtain ⟨S, h1, h2, h3, _, h4⟩ := resTy_has hR e' p1 p2 (h t u ht hu) hi
      exact ⟨S, h1, h2, h3, h4⟩
  · rw [e] at hv; cases hv

/-- Division under native promotion: the bounds of the result type contain the quotient. -/
theorem C29_div_native (p : EP) (hp : p.ae = .throw) (T U : Opd) (hT : T.Wf) (hU : U.Wf) (t u v : Int)
    (ht : T.Has t) (hu : U.Has u) (hv : arith .native p .div T U t u = .ret v) :
    ∃ S, arithTy .native .div T U = .ret S ∧ S.Wf ∧ S.kind = .safe ∧ S.Has v := by
  have hR := uac_ok hT.1 hU.1
  rcases div_native hp hT hU ht hu with h | ⟨_, h⟩
  · rw [h] at hv
    obtain ⟨rfl, _, _, h0, hi⟩ := quotIn_ret hv
    obtain ⟨f1, f2⟩ := native_fits hT hU
    obtain ⟨ri, e, p1, p2, hb⟩ := divItv_contains f1 f2 ht hu h0
    obtain ⟨S, h1, h2, h3, _, h4⟩ := resTy_has hR (resItv_of hT hU e) p1 p2 (held_of_between hb) hi
    exact ⟨S, h1, h2, h3, h4⟩
  · rw [h] at hv; cases hv

/-- Division under any promotion policy whose result type `R` represents both operands, when `R` is as wide as both
operand types or can represent every quotient. -/
theorem C29_div_policy_partial (pp : PP) (p : EP) (hp : p.ae = .throw) (T U : Opd) (hT : T.Wf) (hU : U.Wf) (R : ITy)
    (hR : R.Ok) (hres : pp.result .div T U = .ret R) (f1 : FitsIn R T) (f2 : FitsIn R U)
    (hw : (T.base.digits ≤ R.digits ∧ U.base.digits ≤ R.digits) ∨ ∀ x y, T.Has x → U.Has y → y ≠ 0 → R.In (x.tdiv y))
    (t u v : Int) (ht : T.Has t) (hu : U.Has u) (hv : arith pp p .div T U t u = .ret v) :
    ∃ S, arithTy pp .div T U = .ret S ∧ S.Wf ∧ S.kind = .safe ∧ S.Has v := by
  obtain ⟨B, eB, _, _, h⟩ := runDiv_throw hp hR hT hU (fun _ => f2)
  have hB : B = R ∨ R.In (t.tdiv u) := by
    rcases hw with hw | hw
    · rw [tempBase_self hR hw.1 hw.2] at eB; exact Or.inl (Out.ret.inj eB).symm
    · right
      by_cases h0 : u = 0
      · rw [h0, Int.tdiv_zero]; exact ITy.in_zero R
      · exact hw t u ht hu h0
  have h := h ht hu hB
  unfold arith at hv
  unfold arithTy
  rw [show Arith.binOp .div = .div from rfl, hres, ret_bind] at *
  have hv : runDiv p R T U t u = .ret v := hv
  rw [h] at hv
  split at hv
  · cases hv
  · obtain ⟨rfl, _, _, h0, hi⟩ := quotIn_ret hv
    have hi : R.In (t.tdiv u) := by
      rcases hB with rfl | hB
      · exact hi
      · exact hB
    obtain ⟨ri, e, p1, p2, hb⟩ := divItv_contains f1 f2 ht hu h0
    obtain ⟨S, h1, h2, h3, _, h4⟩ := resTy_has hR (resItv_of hT hU e) p1 p2 (held_of_between hb) hi
    exact ⟨S, h1, h2, h3, h4⟩

/-! ### C31 automatic promotion -/

/-- Automatic promotion: the result type of `+`, `-`, `*` represents every possible result that the widest type
represents: the widest unsigned type for `+` and `*` of two unsigned types, otherwise the widest signed type. -/
theorem C31_holds (o : Arith) (ho : o = .add ∨ o = .sub ∨ o = .mul) (T U : Opd) (hT : T.Wf) (hU : U.Wf) :
    ∃ R, PP.automatic.result o.binOp T U = .ret R ∧ R.Ok ∧
      ∀ x y, T.Has x → U.Has y →
        (if o ≠ .sub ∧ T.base.signed = false ∧ U.base.signed = false then tUIntMax else tIntMax).In (math o x y) →
        R.In (math o x y) := by
  rcases ho with rfl | rfl | rfl
  · obtain ⟨ri, e, p1, p2, h⟩ := add_held (autoTemp T U) hT hU
    obtain ⟨S, eS, _, ok, hS⟩ := autoEnds_spec (autoTemp_cases T U) p1 p2
    refine ⟨S, ?_, ok, fun x y hx hy hi => hS _ (h x y hx hy) ?_⟩
    · show (do autoEnds (autoTemp T U) (← resItv itvAdd (autoTemp T U) T U)) = _
      rw [e, ret_bind, eS]
    · simpa [autoTemp] using hi
  · obtain ⟨ri, e, p1, p2, h⟩ := sub_held tIntMax hT hU
    obtain ⟨S, eS, _, ok, hS⟩ := autoEnds_spec (Or.inl rfl) p1 p2
    refine ⟨S, ?_, ok, fun x y hx hy hi => hS _ (h x y hx hy) ?_⟩
    · show (do autoEnds tIntMax (← resItv itvSub tIntMax T U)) = _
      rw [e, ret_bind, eS]
    · simpa using hi
  · obtain ⟨ri, e, p1, p2, _, h⟩ := mul_held (autoTemp_ok T U) hT hU
    obtain ⟨S, eS, _, ok, hS⟩ := autoEnds_spec (autoTemp_cases T U) p1 p2
    refine ⟨S, ?_, ok, fun x y hx hy hi => hS _ (h x y hx hy) ?_⟩
    · show (do autoEnds (autoTemp T U) (← resItv itvMul (autoTemp T U) T U)) = _
      rw [e, ret_bind, eS]
    · simpa [autoTemp] using hi

/-- Consequently the operation does not throw if the widest type represents the result, provided that the result type also
represents the two operands. Without this proviso it may throw, see `C31_refuted`. -/
theorem C31_nothrow_partial (p : EP) (hp : p.ae = .throw) (o : Arith) (ho : o = .add ∨ o = .sub ∨ o = .mul) (T U : Opd)
    (hT : T.Wf) (hU : U.Wf) (R : ITy) (hres : PP.automatic.result o.binOp T U = .ret R) (t u : Int) (ht : T.Has t)
    (hu : U.Has u) (h1 : R.In t) (h2 : R.In u)
    (hw : (if o ≠ .sub ∧ T.base.signed = false ∧ U.base.signed = false then tUIntMax else tIntMax).In (math o t u)) :
    arith .automatic p o T U t u = .ret (math o t u) := by
  obtain ⟨R', e, hR, h⟩ := C31_holds o ho T U hT hU
  rw [hres] at e
  obtain rfl := Out.ret.inj e
  have h3 := h t u ht hu hw
  unfold arith
  rw [hres, ret_bind]
  rcases ho with rfl | rfl | rfl
  · exact runAdd_in hp hT hU ht hu h1 h2 h3
  · exact runSub_in hp hT hU ht hu h1 h2 h3
  · exact runMul_in hp hR hT hU ht hu h1 h2 h3

/-- If the operand ranges contain zero (for `-`: and the second range is symmetric), the result type represents both
operands, so that the operation never throws when the widest type represents all results. -/
theorem C31_zero (p : EP) (hp : p.ae = .throw) (o : Arith) (ho : o = .add ∨ o = .sub) (T U : Opd)
    (hT : T.Wf) (hU : U.Wf) (zT : T.Has 0) (zU : U.Has 0)
    (hw : ∀ x y, T.Has x → U.Has y →
      (if o ≠ .sub ∧ T.base.signed = false ∧ U.base.signed = false then tUIntMax else tIntMax).In (math o x y))
    (hs : o = .add ∨ ∀ y, U.Has y → U.Has (-y))
    (t u : Int) (ht : T.Has t) (hu : U.Has u) :
    arith .automatic p o T U t u = .ret (math o t u) := by
  obtain ⟨R, e, hR, h⟩ := C31_holds o (by tauto) T U hT hU
  have k : ∀ x y, T.Has x → U.Has y → R.In (math o x y) := fun x y hx hy => h x y hx hy (hw x y hx hy)
  refine C31_nothrow_partial p hp o (by tauto) T U hT hU R e t u ht hu ?_ ?_ (hw t u ht hu)
  · have := k t 0 ht zU
    rcases ho with rfl | rfl
    · simpa [math] using this
    · simpa [math] using this
  · rcases ho with rfl | rfl
    · have := k 0 u zT hu
      simpa [math] using this
    · rcases hs with hs | hs
      · cases hs
      · have := k 0 (-u) zT (hs u hu)
        simpa [math] using this

/-! ### C33 native promotion as a drop-in replacement -/

private theorem in_uac {T U : Opd} (hT : T.Wf) (hU : U.Wf) {t u : Int} (ht : T.Has t) (hu : U.Has u)
    (hc : (uac T.base U.base).signed = true ∨ (0 ≤ t ∧ 0 ≤ u)) :
    (uac T.base U.base).In t ∧ (uac T.base U.base).In u := by
  obtain ⟨f1, f2⟩ := native_fits hT hU
  have a := ht.1; have b := ht.2; have c := hu.1; have d := hu.2
  have := f1.1; have := f2.1
  have e := ITy.min_eq (uac T.base U.base)
  rcases hs : (uac T.base U.base).signed with _ | _
  · rw [hs] at hc e; simp at hc e
    exact ⟨⟨by omega, by omega⟩, ⟨by omega, by omega⟩⟩
  · have := f1.2 hs; have := f2.2 hs
    exact ⟨⟨by omega, by omega⟩, ⟨by omega, by omega⟩⟩

/-- Native promotion: if the built-in expression has a defined, mathematically exact value, and (in the case of an unsigned
result type) neither operand is negative, then the safe expression returns the same value and has the same base
type. The proviso on negative operands is necessary, see `C33_refuted`. -/
theorem C33_arith_partial (p : EP) (hp : p.ae = .throw) (o : Arith) (ho : o ≠ .mod) (T U : Opd) (hT : T.Wf) (hU : U.Wf)
    (t u : Int) (ht : T.Has t) (hu : U.Has u)
    (hc : (uac T.base U.base).signed = true ∨ (0 ≤ t ∧ 0 ≤ u))
    (hb : builtin o T.base U.base t u = .ret (math o t u)) :
    arith .native p o T U t u = .ret (math o t u) ∧
    ∃ S, arithTy .native o T U = .ret S ∧ S.base = uac T.base U.base := by
  have hR := uac_ok hT.1 hU.1
  obtain ⟨i1, i2⟩ := in_uac hT hU ht hu hc
  have hres : PP.native.result o.binOp T U = .ret (uac T.base U.base) := by cases o <;> rfl
  have key : ∀ v, arith .native p o T U t u = .ret v → ∃ S, arithTy .native o T U = .ret S ∧ S.base = uac T.base U.base := by
    intro v hv
    have hS : ∀ S, arithTy .native o T U = .ret S → S.base = uac T.base U.base := by
      intro S hS
      unfold arithTy at hS
      rw [hres, ret_bind] at hS
      unfold resTy at hS
      rcases hx : resItv o.itv (uac T.base U.base) T U with ri | er | fr
      · rw [hx] at hS; cases hS; rfl
      · rw [hx] at hS; cases hS
      · rw [hx] at hS; cases hS
    by_cases hd : o = .div
    · subst hd
      obtain ⟨S, h, _⟩ := C29_div_native p hp T U hT hU t u v ht hu hv
      exact ⟨S, h, hS S h⟩
    · obtain ⟨S, h, _⟩ := C29_arith .native trivial p (Or.inl hp) o (by cases o <;> simp_all) T U hT hU t u v ht hu hv
      exact ⟨S, h, hS S h⟩
  have main : arith .native p o T U t u = .ret (math o t u) := by
    cases o
    · have h3 := cWrap_ret_in hb
      exact runAdd_in hp hT hU ht hu i1 i2 h3
    · have h3 := cWrap_ret_in hb
      exact runSub_in hp hT hU ht hu i1 i2 h3
    · have h3 := cWrap_ret_in hb
      exact runMul_in hp hR hT hU ht hu i1 i2 h3
    · have hb : cDiv T.base U.base t u = .ret (t.tdiv u) := hb
      unfold cDiv at hb
      dsimp only at hb
      rw [conv_of_in i1, conv_of_in i2] at hb
      split at hb
      · cases hb
      · rename_i h0
        have h3 := cWrap_ret_in hb
        rcases div_native hp hT hU ht hu with h | ⟨hl, _⟩
        · rw [h]
          unfold quotIn
          rw [castTo_of_in i1, castTo_of_in i2]
          dsimp only
          rw [if_neg h0, if_neg (by have := h3.2; omega)]; rfl
        · exact absurd (litsOk_value hT hU ht hu i1 i2) hl
    · exact absurd rfl ho
  exact ⟨main, key _ main⟩

/-- The same for comparisons. -/
theorem C33_compare_partial (p : EP) (hp : p.ae = .throw) (o : Rel) (T U : Opd) (hT : T.Wf) (hU : U.Wf)
    (nT : NotLit T) (nU : NotLit U) (t u : Int) (ht : T.Has t) (hu : U.Has u)
    (hc : (uac T.base U.base).signed = true ∨ (0 ≤ t ∧ 0 ≤ u)) :
    builtinRel o T.base U.base t u = rel o t u ∧ compare .native p o T U t u = .ret (builtinRel o T.base U.base t u) := by
  obtain ⟨i1, i2⟩ := in_uac hT hU ht hu hc
  have hb : builtinRel o T.base U.base t u = rel o t u := by
    cases o
    · exact cLt_eq i1 i2
    · exact cGt_eq i1 i2
    · exact cLe_eq i1 i2
    · exact cGe_eq i1 i2
    · exact cEq_eq i1 i2
    · exact cNe_eq i1 i2
  refine ⟨hb, ?_⟩
  rw [hb]
  exact (C28_native p hp o T U hT hU nT nU t u ht hu).1 hc

end

section
attribute [local instance] lp64

/-! ### Examples and refutations -/

/-- C29: `[0,100] + [-5,5]` has type `[-5,105]` -/
example : arithTy .native .add (Opd.range i32 0 100) (Opd.range i32 (-5) 5) = .ret (Opd.range i32 (-5) 105) := by
  decide +kernel
example : arithTy .native .div (Opd.range i32 (-7) 100) (Opd.range i32 (-5) 5) = .ret (Opd.range i32 (-100) 100) := by
  decide +kernel

/-- C29, modulus: `safe_range<0,10> % safe_range<5,5>` has type `[0,0]`, but `7 % 5` is 2 -/
theorem C29_mod_refuted :
    arithTy .native .mod (Opd.range i32 0 10) (Opd.range i32 5 5) = .ret (Opd.range i32 0 0) ∧
    arith .native strictException .mod (Opd.range i32 0 10) (Opd.range i32 5 5) 7 5 = .ret 2 := by decide +kernel

/-- C29, modulus of two whole types: `safe<int8_t> % safe<int8_t>` has type `[-1,127]`, but `-5 % 7` is -5 -/
theorem C29_mod_refuted' :
    arithTy .native .mod (Opd.ofSafe i8) (Opd.ofSafe i8) = .ret (Opd.range i32 (-1) 127) ∧
    arith .native strictException .mod (Opd.ofSafe i8) (Opd.ofSafe i8) (-5) 7 = .ret (-5) := by decide +kernel

/-- C29 for an ignoring policy: the wrapped value is outside the advertised bounds -/
theorem C29_ignore_refuted :
    arithTy .native .add (Opd.range u32 4294967290 4294967295) (Opd.range u32 0 20) =
      .ret (Opd.range u32 4294967290 4294967295) ∧
    arith .native ⟨.ignore, .ignore, .ignore, .ignore⟩ .add (Opd.range u32 4294967290 4294967295) (Opd.range u32 0 20)
      4294967295 20 = .ret 19 := by decide +kernel

/-- C31: `[-100,100] * [-100,100]` needs `int16_t` -/
example : PP.automatic.result .mul (Opd.range i8 (-100) 100) (Opd.range i8 (-100) 100) = .ret i16 ∧
    arith .automatic strictException .mul (Opd.range i8 (-100) 100) (Opd.range i8 (-100) 100) 100 (-100) =
      .ret (-10000) := by decide +kernel

/-- C31: `[1000,1010] - [1000,1010]` gets the type `int8_t`, which represents every result, but the operands do not
convert: the subtraction always throws -/
theorem C31_refuted :
    PP.automatic.result .sub (Opd.range i16 1000 1010) (Opd.range i16 1000 1010) = .ret i8 ∧
    arith .automatic strictException .sub (Opd.range i16 1000 1010) (Opd.range i16 1000 1010) 1005 1003 =
      .thrown .positive_overflow_error := by decide +kernel

/-- C33: `-1 + 5u` is 4 on built-in types, which is the mathematical value; `safe<int>(-1) + 5u` throws -/
theorem C33_refuted :
    builtin .add i32 u32 (-1) 5 = .ret (math .add (-1) 5) ∧
    arith .native strictException .add (Opd.ofSafe i32) (Opd.ofBuiltin u32) (-1) 5 = .thrown .domain_error := by
  decide +kernel

example : builtin .div i32 i32 (-100) 7 = .ret (-14) ∧
    arith .native strictException .div (Opd.ofSafe i32) (Opd.ofBuiltin i32) (-100) 7 = .ret (-14) := by decide +kernel
end
end Verif.Props
