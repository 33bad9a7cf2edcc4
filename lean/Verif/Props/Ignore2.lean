import Verif.Proofs.ExactShift
import Verif.Proofs.ExactDiv
import Verif.Proofs.Quiet
import Verif.Props.Ignore

/-!
Property C53, continued: remainders and shifts with policies that ignore errors, and operands that are not values of the result
type.
-/

namespace Verif.Props
open Spec
section
variable [Arch]

omit [Arch] in
private theorem notLit {T : Opd} (h : NotLit T) : ∀ b, T.kind ≠ .lit b := by
  intro b hb; rcases h with h | h <;> rw [h] at hb <;> cases hb

private theorem promote_uac (T U : ITy) : promote (uac T U) = uac T U := by
  unfold uac
  dsimp only
  split_ifs <;> exact promote_promote _

omit [Arch] in
private theorem handler_idb {p : EP} (hp : p.idb = .ignore) {e : Err}
    (he : makeAction e = .implementation_defined_behavior) : dispatchAndReturn p e = .ret (.err e) := by
  unfold dispatchAndReturn dispatch EP.act
  rw [he, hp]
  cases e <;> first | rfl | cases he

/-! ### operands that are not values of the result type -/

private theorem toBuiltin_ub {p : EP} (hp : p.ae = .ignore) {R : ITy} {T : Opd} (hT : T.Wf) {t : Int} (ht : T.Has t)
    (h : ¬ R.In t) : toBuiltin p R T t = .fault .ub := by
  have tin := hT.has_in ht
  have wf := wf_builtin hT.1
  have nx : ((⟨R.min, R.max⟩ : Itv Int).excludes (intCmp R) ⟨conv R T.lo, conv R T.hi⟩).toBool = false := by
    have c1 := conv_in R T.lo; have c2 := conv_in R T.hi
    change ((T3.ofBool (cLt R R (conv R T.hi) R.min)).or (T3.ofBool (cLt R R R.max (conv R T.lo)))).toBool = false
    rw [cLt_eq (in_uac_self c2) (in_uac_self R.in_min), cLt_eq (in_uac_self R.in_max) (in_uac_self c1)]
    have := c1.2; have := c2.1
    rw [decide_eq_false (by omega), decide_eq_false (by omega)]
    rfl
  have nex : exclStatic R R.min R.max (Opd.ofBuiltin T.base) = false := by
    by_contra h
    have := exclStatic_sound R.in_min R.in_max (by simpa using h)
    have h1 := R.min_nonpos; have h2 := R.max_ge
    have h3 := T.base.min_nonpos; have h4 := T.base.max_ge
    change R.max < T.base.min ∨ T.base.max < R.min at this
    omega
  unfold toBuiltin
  rw [if_neg (by rw [nx]; decide), validate_eq R.in_min R.in_max wf tin, hp, if_neg (by rw [nex]; decide)]
  split
  · rename_i hi
    have := inclStatic_sound R.in_min R.in_max hi
    have h1 := tin.1; have h2 := tin.2
    change R.min ≤ T.base.min ∧ T.base.max ≤ R.max at this
    exact absurd ⟨by omega, by omega⟩ h
  · dsimp only; rw [if_neg (show ¬ (R.min ≤ t ∧ t ≤ R.max) from h)]

private theorem castOne_ub {p : EP} (hp : p.ae = .ignore) {R : ITy} {T : Opd} (hT : T.Wf) (hk : T.kind = .safe) {t : Int}
    (ht : T.Has t) (h : ¬ R.In t) : castOne p R T t = .fault .ub := by
  unfold castOne
  rw [cast_full (hT.has_in ht)]
  rcases hc : castTo R t with v | e
  · exact absurd (castTo_ok hc).2 (by rw [(castTo_ok hc).1] at *; exact h)
  · show (dispatchAndReturn p e >>= _) = _
    rw [handler_ignore hp (castTo_arith hc)]
    have he : e ≠ .success := by
      intro he; have := castTo_arith hc; rw [he] at this; cases this
    simp [CR.exception, he, castFallback, hk, toBuiltin_ub hp hT ht h]

/-- one of the operands is of a safe type and not a value of `R` -/
def Unfit (R : ITy) (T U : Opd) (t u : Int) : Prop := (T.kind = .safe ∧ ¬ R.In t) ∨ (U.kind = .safe ∧ ¬ R.In u)

private theorem castingHelper_ub {p : EP} (hp : p.ae = .ignore) {R : ITy} {T U : Opd} {t u : Int} (hT : T.Wf)
    (ht : T.Has t) (hU : U.Wf) (hu : U.Has u) (nT : NotLit T) (nU : NotLit U) (h : Unfit R T U t u) :
    castingHelper p R T U t u = .fault .ub := by
  have hn : p.ae ≠ .trap := by rw [hp]; decide
  unfold castingHelper
  rw [castStatic_eq hT, castStatic_eq hU, litOk_not_lit (notLit nT), litOk_not_lit (notLit nU)]
  simp only [hn, ne_eq, not_false_eq_true, and_self, if_true, Out.ret_bind]
  by_cases g : T.kind = .safe ∧ ¬ R.In t
  · rw [castOne_ub hp hT g.1 ht g.2]; rfl
  · have h' : U.kind = .safe ∧ ¬ R.In u := h.resolve_left g
    have pl : Plain R T t := by
      by_cases i : R.In t
      · exact Or.inr i
      · refine Or.inl ?_
        rcases nT with k | k
        · exact k
        · exact absurd ⟨k, i⟩ g
    rw [castOne_ignore hp hT ht pl, castOne_ub hp hU h'.1 hu h'.2]; rfl

private theorem runChecked_ub {op : ArithOp} {p : EP} (hp : p.ae = .ignore) {R : ITy} {T U : Opd} {t u : Int} (hT : T.Wf)
    (ht : T.Has t) (hU : U.Wf) (hu : U.Has u) (nT : NotLit T) (nU : NotLit U) (h : Unfit R T U t u)
    (htr : p.traps op.errs = false) : runChecked op p R T U t u = .fault .ub := by
  have hn : p.ae ≠ .trap := by rw [hp]; decide
  unfold runChecked
  rw [castStatic_eq hT, castStatic_eq hU, htr, castingHelper_ub hp hT ht hU hu nT nU h, litOk_not_lit (notLit nT),
    litOk_not_lit (notLit nU)]
  simp [hn]

/-- With a policy that ignores arithmetic errors and native promotion, an operand of a safe type that is not a value of the result
type makes `+`, `-`, `*`, `/` and `%` undefined, although the built-in expression would just convert it. -/
theorem C53_unfit_refuted (p : EP) (hp : p.ae = .ignore) (o : Arith) (T U : Opd) (hT : T.Wf) (hU : U.Wf) (nT : NotLit T)
    (nU : NotLit U) (t u : Int) (ht : T.Has t) (hu : U.Has u) (h : Unfit (uac T.base U.base) T U t u) :
    arith .native p o T U t u = .fault .ub := by
  have hn : p.ae ≠ .trap := by rw [hp]; decide
  have hR := uac_ok hT.1 hU.1
  obtain ⟨f1, f2⟩ := native_fits hT hU
  have tr : ∀ op : ArithOp, op.errs = [.positive_overflow_error, .negative_overflow_error] → p.traps op.errs = false := by
    intro op e; rw [e, traps_arith, decide_eq_false hn]
  have nin : ¬ ((uac T.base U.base).In t ∧ (uac T.base U.base).In u) := by
    rcases h with h | h
    · exact fun g => h.2 g.1
    · exact fun g => h.2 g.2
  have divs : ∀ (f : ITy → Itv CR → Itv CR → Out (Itv CR)) prim (chk : ITy → Handler → Int → Int → Out CR) g es ri,
      resItv f (uac T.base U.base) T U = .ret ri →
      divExcPossible (uac T.base U.base) ⟨castTo (uac T.base U.base) U.lo, castTo (uac T.base U.base) U.hi⟩ ri = true →
      p.traps es = false → runDivMod f prim chk g es p (uac T.base U.base) T U t u = .fault .ub := by
    intro f prim chk g es ri e1 e2 e3
    unfold runDivMod
    rw [e1, castItv_eq hU]
    simp only [Out.ret_bind]
    rw [if_pos e2, tempBase_self hR (uac_digits_left _ _) (uac_digits_right _ _)]
    simp only [Out.ret_bind]
    rw [castStatic_eq hT, castStatic_eq hU, e3, castingHelper_ub hp hT ht hU hu nT nU h, litOk_not_lit (notLit nT),
      litOk_not_lit (notLit nU)]
    simp [hn]
  cases o
  · obtain ⟨ri, e, _⟩ := resItv_add (R := uac T.base U.base) hT hU
    show runOp opAdd p (uac T.base U.base) T U t u = _
    rw [runOp_cases (op := opAdd) e]
    by_cases hs : staticExc opAdd (uac T.base U.base) T U = true
    · rw [if_pos hs, runChecked_ub hp hT ht hU hu nT nU h (tr opAdd rfl)]
    · obtain ⟨a, b, _⟩ := add_static hT hU (by simpa using hs) ht hu
      exact absurd ⟨a, b⟩ nin
  · obtain ⟨ri, e, _⟩ := resItv_sub (R := uac T.base U.base) hT hU
    show runOp opSub p (uac T.base U.base) T U t u = _
    rw [runOp_cases (op := opSub) e]
    by_cases hs : staticExc opSub (uac T.base U.base) T U = true
    · rw [if_pos hs, runChecked_ub hp hT ht hU hu nT nU h (tr opSub rfl)]
    · obtain ⟨a, b, _⟩ := sub_static hT hU (by simpa using hs) ht hu
      exact absurd ⟨a, b⟩ nin
  · obtain ⟨ri, e, _⟩ := resItv_mul hR hT hU
    show runOp opMul p (uac T.base U.base) T U t u = _
    rw [runOp_cases (op := opMul) e]
    by_cases hs : staticExc opMul (uac T.base U.base) T U = true
    · rw [if_pos hs, runChecked_ub hp hT ht hU hu nT nU h (tr opMul rfl)]
    · exfalso
      have hz := (uac T.base U.base).min_nonpos; have hm := (uac T.base U.base).max_ge
      have t1 := ht.1; have t2 := ht.2; have u1 := hu.1; have u2 := hu.2
      have fin : ∀ (V : Opd) (v : Int), Fits (uac T.base U.base) V → V.Has v →
          ((uac T.base U.base).signed = true ∨ 0 ≤ V.lo) → (uac T.base U.base).In v := by
        intro V v f hv g
        have := f.1; have := hv.1; have := hv.2
        refine ⟨?_, by omega⟩
        rcases g with g | g
        · have := f.2 g; omega
        · omega
      rcases mul_static_fits hR hT hU (by simpa using hs) ht hu with ⟨a, b, _⟩ | ⟨a, b, c⟩ | ⟨a, b, c⟩
      · exact nin ⟨a, b⟩
      · exact nin ⟨⟨by omega, by omega⟩, fin U u f2 hu c⟩
      · exact nin ⟨fin T t f1 ht c, ⟨by omega, by omega⟩⟩
  · obtain ⟨ri, e, _⟩ := divItv_total (R := uac T.base U.base)
      (t := ⟨castTo (uac T.base U.base) T.lo, castTo (uac T.base U.base) T.hi⟩)
      (u := ⟨castTo (uac T.base U.base) U.lo, castTo (uac T.base U.base) U.hi⟩) castTo_proper castTo_proper castTo_proper
      castTo_proper
    refine divs _ _ _ _ _ ri (resItv_of hT hU e) ?_ (by rw [traps_div, decide_eq_false hn])
    by_contra hh
    obtain ⟨i1, i2, _⟩ := div_static hT hU f2 e (by simpa using hh) ht hu
    exact nin ⟨i1, i2⟩
  · obtain ⟨ri, e, _⟩ := modItv_total (R := uac T.base U.base)
      (t := ⟨castTo (uac T.base U.base) T.lo, castTo (uac T.base U.base) T.hi⟩)
      (u := ⟨castTo (uac T.base U.base) U.lo, castTo (uac T.base U.base) U.hi⟩) castTo_proper castTo_proper castTo_proper
      castTo_proper
    refine divs _ _ _ _ _ ri (resItv_of hT hU e) ?_ (by rw [traps_mod, decide_eq_false hn])
    by_contra hh
    obtain ⟨i1, i2, _⟩ := mod_static hT hU f1 f2 e (by simpa using hh) ht hu
    exact nin ⟨i1, i2⟩

/-! ### remainders -/

private theorem crMod_zero {R : ITy} {a : Int} (ha : R.In a) : crMod R (.ok a) (.ok 0) = .ret (.err .range_error) := by
  unfold crMod
  rw [prodFlag_ok ha, prodFlag_ok R.in_zero]
  split_ifs <;> first | rfl | omega

/-- Native promotion: with a policy that ignores arithmetic errors `%` is the built-in expression whenever that is defined, except
that the smallest value of a signed type is its own remainder when divided by itself; a zero divisor is undefined as in the
built-in expression. -/
theorem C53_mod_partial (p : EP) (hp : p.ae = .ignore) (T U : Opd) (hT : T.Wf) (hU : U.Wf) (nT : NotLit T) (nU : NotLit U)
    (t u : Int) (ht : T.Has t) (hu : U.Has u) (h1 : T.kind = .builtin ∨ (uac T.base U.base).In t)
    (h2 : U.kind = .builtin ∨ (uac T.base U.base).In u) :
    (∀ v, builtin .mod T.base U.base t u = .ret v →
      ¬ ((uac T.base U.base).signed = true ∧ conv (uac T.base U.base) t = (uac T.base U.base).min ∧
        conv (uac T.base U.base) u = (uac T.base U.base).min) → arith .native p .mod T U t u = .ret v) ∧
    (conv (uac T.base U.base) u = 0 → arith .native p .mod T U t u = .fault .ub) := by
  have h : p.ae ≠ .trap := by rw [hp]; decide
  have hR := uac_ok hT.1 hU.1
  show (∀ v, cMod T.base U.base t u = .ret v → _ → runMod p (uac T.base U.base) T U t u = _) ∧
    (_ → runMod p (uac T.base U.base) T U t u = _)
  have key : cMod (uac T.base U.base) (uac T.base U.base) (conv (uac T.base U.base) t) (conv (uac T.base U.base) u) =
      cMod T.base U.base t u := by
    have e1 : uac (uac T.base U.base) (uac T.base U.base) = uac T.base U.base := by rw [uac_self, promote_uac]
    unfold cMod
    rw [e1, conv_idem, conv_idem]
  have pr := promote_uac T.base U.base
  generalize hRe : uac T.base U.base = R at *
  obtain ⟨f1, f2⟩ : Fits R T ∧ Fits R U := by rw [← hRe]; exact native_fits hT hU
  have hB : tempBase R T U = .ret R := by
    refine tempBase_self hR ?_ ?_ <;> rw [← hRe]
    · exact uac_digits_left _ _
    · exact uac_digits_right _ _
  obtain ⟨ri, e, pl, pu, _⟩ := modItv_total (R := R) (t := ⟨castTo R T.lo, castTo R T.hi⟩)
    (u := ⟨castTo R U.lo, castTo R U.hi⟩) castTo_proper castTo_proper castTo_proper castTo_proper
  have ia := conv_in R t
  have ib := conv_in R u
  have cl := cMod_closed ia ib
  unfold runMod runDivMod
  rw [resItv_of hT hU e, castItv_eq hU]
  simp only [Out.ret_bind]
  have rin : ∀ v, cMod R R (conv R t) (conv R u) = .ret v → conv R v = v ∧ conv R u ≠ 0 ∧ v = (conv R t).tmod (conv R u) := by
    intro v hv
    rw [cl] at hv
    split at hv
    · cases hv
    · rename_i g
      cases hv
      refine ⟨conv_of_in (tmod_in ia), fun z => g (Or.inl z), rfl⟩
  by_cases hh : divExcPossible R ⟨castTo R U.lo, castTo R U.hi⟩ ri = true
  · rw [if_pos hh, hB]
    simp only [Out.ret_bind]
    rw [castStatic_eq hT, castStatic_eq hU, traps_mod,
      castingHelper_ignore hp hT ht hU hu (litOk_not_lit (notLit nT)) (litOk_not_lit (notLit nU)) h1 h2,
      litOk_not_lit (notLit nT), litOk_not_lit (notLit nU)]
    simp only [h, ne_eq, not_false_eq_true, and_self, if_true, Out.ret_bind, decide_false,
      Bool.false_eq_true, if_false]
    rw [modulus_eq ia ib]
    constructor
    · intro v hv hx
      obtain ⟨c, z, rfl⟩ := rin v (key.trans hv)
      rw [if_neg z, if_neg hx]
      show Out.ret (conv R _) = _
      rw [c]
    · intro z
      rw [if_pos z, handler_ignore hp rfl, z]
      show (crMod R (.ok (conv R t)) (.ok 0) >>= _) = _
      rw [crMod_zero ia]; rfl
  · rw [if_neg hh]
    constructor
    · intro v hv _
      rw [key, hv, Out.ret_bind, (rin v (key.trans hv)).1]
    · intro z
      rw [cl, if_pos (Or.inl z)]; rfl

/-! ### shifts -/

/-- With a policy that ignores arithmetic errors and implementation defined behaviour, `<<` in the result type `R` is the built-in
operator on the operands converted to `R`, converted to `R`; except that a count of zero yields the left operand when a check is made
at run time, also for negative operands, for which the built-in shift is undefined. -/
theorem C53_shl_partial (pp : PP) (p : EP) (hp : p.ae = .ignore) (hq : p.idb = .ignore) (T U : Opd) (hT : T.Wf) (hU : U.Wf)
    (nT : NotLit T) (nU : NotLit U) (R : ITy) (hR : R.Ok) (hres : pp.result .shl T U = .ret R) (t u : Int) (ht : T.Has t)
    (hu : U.Has u) (h1 : T.kind = .builtin ∨ R.In t) (h2 : U.kind = .builtin ∨ R.In u) :
    shl pp p T U t u =
      if conv R u = 0 ∧ ¬ ShlSkipped R T U then .ret (conv R t)
      else (do
        let v ← cShl R R (conv R t) (conv R u)
        .ret (conv R v)) := by
  have h : p.ae ≠ .trap := by rw [hp]; decide
  have h' : p.idb ≠ .trap := by rw [hq]; decide
  obtain ⟨hk, ri, e⟩ := shl_skipped hR hT hU
  have ia := conv_in R t
  have ib := conv_in R u
  unfold shl
  rw [hres, Out.ret_bind, runOp_cases (op := opShl) e]
  by_cases hs : ShlSkipped R T U
  · rw [hk.2 hs, if_neg nofun, if_neg (fun g => g.2 hs)]; rfl
  · have hs' : staticExc opShl R T U = true := by
      by_contra g; exact hs (hk.1 (by simpa using g))
    rw [hs', if_pos rfl]
    unfold runChecked
    rw [castStatic_eq hT, castStatic_eq hU, traps_shl,
      castingHelper_ignore hp hT ht hU hu (litOk_not_lit (notLit nT)) (litOk_not_lit (notLit nU)) h1 h2,
      litOk_not_lit (notLit nT), litOk_not_lit (notLit nU)]
    simp only [h, h', ne_eq, not_false_eq_true, and_self, if_true, Out.ret_bind, decide_false,
      Bool.false_eq_true, if_false]
    show (leftShift R (dispatchAndReturn p) (conv R t) (conv R u) >>= _) = _
    rw [leftShift_eq hR ia ib, handler_idb hq (e := .negative_shift) rfl, handler_idb hq (e := .shift_too_large) rfl]
    by_cases z : conv R u = 0
    · rw [if_pos z, if_pos ⟨z, hs⟩]; rfl
    · rw [if_neg z, if_neg (show ¬ (conv R u = 0 ∧ ¬ ShlSkipped R T U) from fun g => z g.1)]
      by_cases g1 : conv R u < 0
      · rw [if_pos g1]; rfl
      rw [if_neg g1]
      by_cases g2 : (R.digits : Int) < conv R u
      · rw [if_pos g2]; rfl
      rw [if_neg g2]
      by_cases g3 : conv R t < 0
      · rw [if_pos g3]; rfl
      rw [if_neg g3]
      by_cases g4 : (R.digits : Int) - sbits (conv R t) < conv R u
      · rw [if_pos g4]; rfl
      rw [if_neg g4]
      have hf := shl_fits (d := R.digits) (t := conv R t) (u := conv R u) (by omega) (by omega) (by omega)
      have hpo : 0 ≤ conv R t * 2 ^ (conv R u).toNat := Int.mul_nonneg (by omega) (Int.le_of_lt (two_pow_pos _))
      have hz := R.min_nonpos
      have hr : R.In (conv R t * 2 ^ (conv R u).toNat) := ⟨by omega, by unfold ITy.max; omega⟩
      have hpb := ITy.bits_le (promote_lg R)
      have hdb := digits_le_bits R
      have hs1 := sbits_pos (conv R t)
      rw [cShl_eq (in_promote ia) (by omega) (in_promote ib) (by omega) (by omega) (in_promote hr), Out.ret_bind,
        Out.ret_bind, conv_of_in hr]
      rfl

/-- The same for `>>`, without exception, for operand types that compile. -/
theorem C53_shr_partial (pp : PP) (p : EP) (hp : p.ae = .ignore) (hq : p.idb = .ignore) (T U : Opd) (hT : T.Wf) (hU : U.Wf)
    (nT : NotLit T) (nU : NotLit U) (R : ITy) (hR : R.Ok) (hres : pp.result .shr T U = .ret R) (t u : Int) (ht : T.Has t)
    (hu : U.Has u) (h1 : T.kind = .builtin ∨ R.In t) (h2 : U.kind = .builtin ∨ R.In u)
    (hc : shr pp p T U t u ≠ .fault .illFormed) :
    shr pp p T U t u = (do
      let v ← cShr R R (conv R t) (conv R u)
      .ret (conv R v)) := by
  have h : p.ae ≠ .trap := by rw [hp]; decide
  have h' : p.idb ≠ .trap := by rw [hq]; decide
  have ia := conv_in R t
  have ib := conv_in R u
  unfold shr at hc ⊢
  rw [hres, Out.ret_bind] at hc ⊢
  unfold runShr at hc ⊢
  rcases shr_res hR hT hU with e | ⟨ri, e, _⟩
  · rw [e] at hc; exact absurd rfl hc
  rw [e, castItv_eq hT, castItv_eq hU]
  simp only [Out.ret_bind]
  by_cases hs : shrExcPossible R ⟨castTo R T.lo, castTo R T.hi⟩ ⟨castTo R U.lo, castTo R U.hi⟩ ri = true
  · rw [if_pos hs]
    unfold runChecked
    rw [castStatic_eq hT, castStatic_eq hU, traps_shr,
      castingHelper_ignore hp hT ht hU hu (litOk_not_lit (notLit nT)) (litOk_not_lit (notLit nU)) h1 h2,
      litOk_not_lit (notLit nT), litOk_not_lit (notLit nU)]
    simp only [h, h', ne_eq, not_false_eq_true, and_self, if_true, Out.ret_bind, decide_false,
      Bool.false_eq_true, if_false]
    show (rightShift R (dispatchAndReturn p) (conv R t) (conv R u) >>= _) = _
    rw [rightShift_eq hR ia ib, handler_idb hq (e := .negative_shift) rfl, handler_idb hq (e := .shift_too_large) rfl,
      handler_idb hq (e := .negative_value_shift) rfl]
    by_cases g1 : conv R u < 0
    · rw [if_pos g1]; rfl
    rw [if_neg g1]
    by_cases g2 : (R.digits : Int) < conv R u
    · rw [if_pos g2]; rfl
    rw [if_neg g2]
    by_cases g3 : conv R t < 0
    · rw [if_pos g3]; rfl
    rw [if_neg g3, cShr_eq (in_promote ia) (in_promote ib)]
    have hpb := ITy.bits_le (promote_lg R)
    have hdb := digits_le_bits R
    by_cases g4 : R.signed = false ∧ Arch.intLg ≤ R.lg ∧ conv R u = R.bits
    · rw [if_pos g4, promote_of_ge g4.2.1, if_pos (Or.inr (by omega))]; rfl
    rw [if_neg g4, if_neg ?_, Out.ret_bind, Out.ret_bind, conv_of_in (shr_in _ ia (by omega))]
    · rfl
    · rintro (g | g)
      · omega
      · apply g4
        rcases hs' : R.signed with _ | _
        · have hd := ITy.digits_unsigned hs'
          refine ⟨rfl, ?_, by omega⟩
          by_contra hl
          have hb2 := ITy.bits_lt (T := R) (U := promote R) (Nat.lt_of_lt_of_le (by omega) (promote_lg' R))
          have := R.bits_pos
          omega
        · have hd := ITy.digits_signed hs'
          have := R.bits_pos
          omega
  · rw [if_neg hs]; rfl

/-! ### comparisons -/

private theorem runLt_ignore {p : EP} (hp : p.ae = .ignore) {R : ITy} {T U : Opd} {t u : Int} (hT : T.Wf) (hU : U.Wf)
    (nT : NotLit T) (nU : NotLit U) (ht : T.Has t) (hu : U.Has u) :
    (Unfit R T U t u → runLt p R T U t u = .fault .ub ∨ runLt p R T U t u = .ret (decide (t < u))) ∧
    (Plain R T t → Plain R U u → runLt p R T U t u = .ret (decide (conv R t < conv R u)) ∨
      runLt p R T U t u = .ret (decide (t < u))) := by
  have hp' : p.ae ≠ .trap := by rw [hp]; decide
  have l : LitsOk R T U := ⟨litOk_not_lit (notLit nT), litOk_not_lit (notLit nU)⟩
  unfold runLt
  rw [castItv_eq hT, castItv_eq hU]
  simp only [Out.ret_bind]
  rw [castStatics hT hU, if_pos (show LitsOk R T U ∧ p.ae ≠ .trap from ⟨l, hp'⟩),
    show (itvOpen ⟨castTo R T.lo, castTo R T.hi⟩ || itvOpen ⟨castTo R U.lo, castTo R U.hi⟩) = cmpOpen R T U from rfl]
  by_cases a : ((⟨castTo R T.lo, castTo R T.hi⟩ : Itv CR).lt (crCmp R) ⟨castTo R U.lo, castTo R U.hi⟩).toBool = true
  · have := itvLt_tt ht hu a
    simp only [if_pos a, ite_self, decide_eq_true this]
    exact ⟨fun _ => Or.inr trivial, fun _ _ => Or.inr trivial⟩
  by_cases b : ((⟨castTo R T.lo, castTo R T.hi⟩ : Itv CR).gt (crCmp R) ⟨castTo R U.lo, castTo R U.hi⟩).toBool = true
  · have := itvGt_tt ht hu b
    simp only [if_neg a, if_pos b, ite_self, decide_eq_false (show ¬ t < u by omega)]
    exact ⟨fun _ => Or.inr trivial, fun _ _ => Or.inr trivial⟩
  simp only [if_neg a, if_neg b]
  by_cases ho : cmpOpen R T U = true
  · refine ⟨fun h => Or.inl ?_, fun h1 h2 => Or.inl ?_⟩
    · rw [if_pos ho, castingHelper_ub hp hT ht hU hu nT nU h]; rfl
    · rw [if_pos ho, castingHelper_ignore hp hT ht hU hu l.1 l.2 h1 h2]
      exact congrArg Out.ret (SafeCompare.lessThan_eq (conv_in R t) (conv_in R u))
  · obtain ⟨i1, i2⟩ := cmpOpen_false (by simpa using ho)
    have i1 := in_between i1 ht; have i2 := in_between i2 hu
    refine ⟨fun h => ?_, fun _ _ => Or.inl ?_⟩
    · rcases h with h | h
      · exact absurd i1 h.2
      · exact absurd i2 h.2
    · rw [if_neg ho, cLt_eq (in_uac_self (conv_in R t)) (in_uac_self (conv_in R u))]

private theorem runEq_ignore {p : EP} (hp : p.ae = .ignore) {R : ITy} {T U : Opd} {t u : Int} (hT : T.Wf) (hU : U.Wf)
    (nT : NotLit T) (nU : NotLit U) (ht : T.Has t) (hu : U.Has u) :
    (Unfit R T U t u → runEq p R T U t u = .fault .ub) ∧
    (Plain R T t → Plain R U u → runEq p R T U t u = .ret (decide (conv R t = conv R u))) := by
  have hp' : p.ae ≠ .trap := by rw [hp]; decide
  have l : LitsOk R T U := ⟨litOk_not_lit (notLit nT), litOk_not_lit (notLit nU)⟩
  unfold runEq
  rw [castItv_eq hT, castItv_eq hU]
  simp only [Out.ret_bind]
  rw [castStatics hT hU, if_pos (show LitsOk R T U ∧ p.ae ≠ .trap from ⟨l, hp'⟩), intersect_not hT.2.2.2.1 hU.2.2.2.1,
    show (itvOpen ⟨castTo R T.lo, castTo R T.hi⟩ || itvOpen ⟨castTo R U.lo, castTo R U.hi⟩) = cmpOpen R T U from rfl]
  simp only [Bool.false_eq_true, if_false]
  by_cases ho : cmpOpen R T U = true
  · refine ⟨fun h => ?_, fun h1 h2 => ?_⟩
    · rw [if_pos ho, castingHelper_ub hp hT ht hU hu nT nU h]; rfl
    · rw [if_pos ho, castingHelper_ignore hp hT ht hU hu l.1 l.2 h1 h2]
      exact congrArg Out.ret (SafeCompare.equal_eq (conv_in R t) (conv_in R u))
  · obtain ⟨i1, i2⟩ := cmpOpen_false (by simpa using ho)
    have i1 := in_between i1 ht; have i2 := in_between i2 hu
    refine ⟨fun h => ?_, fun _ _ => ?_⟩
    · rcases h with h | h
      · exact absurd i1 h.2
      · exact absurd i2 h.2
    · rw [if_neg ho, cEq_eq (in_uac_self (conv_in R t)) (in_uac_self (conv_in R u))]

/-- Comparisons with a policy that ignores arithmetic errors, native promotion. If both operands are of built-in types or values of the
common type, the answer is that of the built-in comparison, or (where the ranges decide) that of the comparison of the numbers. If an
operand of a safe type is not a value of the common type, the comparison is undefined, or gives the answer for the numbers. -/
theorem C53_compare_partial (p : EP) (hp : p.ae = .ignore) (o : Rel) (T U : Opd) (hT : T.Wf) (hU : U.Wf) (nT : NotLit T)
    (nU : NotLit U) (t u : Int) (ht : T.Has t) (hu : U.Has u) :
    (Unfit (uac T.base U.base) T U t u →
      compare .native p o T U t u = .fault .ub ∨ compare .native p o T U t u = .ret (rel o t u)) ∧
    (T.kind = .builtin ∨ (uac T.base U.base).In t → U.kind = .builtin ∨ (uac T.base U.base).In u →
      compare .native p o T U t u = .ret (builtinRel o T.base U.base t u) ∨
      compare .native p o T U t u = .ret (rel o t u)) := by
  have c := uac_comm T.base U.base
  have L := runLt_ignore hp (R := uac T.base U.base) hT hU nT nU ht hu
  have G := runLt_ignore hp (R := uac U.base T.base) hU hT nU nT hu ht
  have E := runEq_ignore hp (R := uac T.base U.base) hT hU nT nU ht hu
  have neg : ∀ x y : Int, decide (x ≤ y) = !decide (y < x) := fun x y => by
    rw [← decide_not]; exact decide_eq_decide.2 (by omega)
  have bnd : ∀ {q : Out Bool} {b : Bool}, q = .ret b → (do let b ← q; Out.ret (!b)) = .ret (!b) := by rintro q b rfl; rfl
  have bub : ∀ {q : Out Bool}, q = .fault .ub → (do let b ← q; Out.ret (!b)) = .fault .ub := by rintro q rfl; rfl
  have swp : Unfit (uac T.base U.base) T U t u → Unfit (uac U.base T.base) U T u t := by rw [c]; exact Or.symm
  cases o
  · exact L
  · refine ⟨fun h => G.1 (swp h), fun h1 h2 => ?_⟩
    rw [c] at h1 h2
    rcases G.2 h2 h1 with g | g
    · left
      show runLt p (uac U.base T.base) U T u t = .ret (decide (conv (uac T.base U.base) u < conv (uac T.base U.base) t))
      rw [g, c]
    · exact Or.inr g
  · refine ⟨fun h => ?_, fun h1 h2 => ?_⟩
    · rcases G.1 (swp h) with g | g
      · exact Or.inl (bub g)
      · refine Or.inr ((bnd g).trans ?_)
        show _ = Out.ret (decide (t ≤ u))
        rw [neg]
    · rw [c] at h1 h2
      rcases G.2 h2 h1 with g | g
      · refine Or.inl ((bnd g).trans ?_)
        show _ = Out.ret (decide (conv (uac T.base U.base) t ≤ conv (uac T.base U.base) u))
        rw [neg, c]
      · refine Or.inr ((bnd g).trans ?_)
        show _ = Out.ret (decide (t ≤ u))
        rw [neg]
  · refine ⟨fun h => ?_, fun h1 h2 => ?_⟩
    · rcases L.1 h with g | g
      · exact Or.inl (bub g)
      · refine Or.inr ((bnd g).trans ?_)
        show _ = Out.ret (decide (u ≤ t))
        rw [neg]
    · rcases L.2 h1 h2 with g | g
      · refine Or.inl ((bnd g).trans ?_)
        show _ = Out.ret (decide (conv (uac T.base U.base) u ≤ conv (uac T.base U.base) t))
        rw [neg]
      · refine Or.inr ((bnd g).trans ?_)
        show _ = Out.ret (decide (u ≤ t))
        rw [neg]
  · exact ⟨fun h => Or.inl (E.1 h), fun h1 h2 => Or.inl (E.2 h1 h2)⟩
  · refine ⟨fun h => Or.inl (bub (E.1 h)), fun h1 h2 => Or.inl ((bnd (E.2 h1 h2)).trans ?_)⟩
    show _ = Out.ret (decide (conv (uac T.base U.base) t ≠ conv (uac T.base U.base) u))
    rw [← decide_not]

end

section
attribute [local instance] lp64

/-- `INT_MIN % INT_MIN` is `INT_MIN`, the built-in expression gives 0; `safe<int>(-1) << 0` is -1, the built-in expression is undefined;
`safe<int>(-1) % 5u` is undefined, the built-in expression gives 0. -/
theorem C53_mod_refuted :
    arith .native ignoring .mod (Opd.ofSafe i32) (Opd.ofSafe i32) (-2147483648) (-2147483648) = .ret (-2147483648) ∧
    builtin .mod i32 i32 (-2147483648) (-2147483648) = .ret 0 ∧
    shl .native ignoring (Opd.ofSafe i32) (Opd.ofSafe i32) (-1) 0 = .ret (-1) ∧ cShl i32 i32 (-1) 0 = .fault .ub ∧
    arith .native ignoring .mod (Opd.ofSafe i32) (Opd.ofBuiltin u32) (-1) 5 = .fault .ub ∧
    builtin .mod i32 u32 (-1) 5 = .ret 0 := by decide +kernel

/-- All the cases of `C53_compare_partial` occur: `safe<int>(-1) < 5u` is undefined (the built-in comparison says `false`); compared with
a value between 10 and 20 the types decide, and the answer is that for the numbers; and `5u < -1` with a built-in `-1` is what the
built-in comparison says, which is wrong for the numbers. -/
theorem C53_compare_refuted :
    compare .native ignoring .lt (Opd.ofSafe i32) (Opd.ofBuiltin u32) (-1) 5 = .fault .ub ∧
    builtinRel .lt i32 u32 (-1) 5 = false ∧
    compare .native ignoring .lt (Opd.range i32 (-5) 3) (Opd.range u32 10 20) (-1) 15 = .ret true ∧
    builtinRel .lt i32 u32 (-1) 15 = false ∧
    compare .native ignoring .lt (Opd.ofSafe u32) (Opd.ofBuiltin i32) 5 (-1) = .ret true ∧ rel .lt 5 (-1) = false := by
  decide +kernel

-- non-trivial instances of the hypotheses
example : Unfit (uac i32 u32) (Opd.ofSafe i32) (Opd.ofBuiltin u32) (-1) 5 := by unfold Unfit; decide +kernel
example : arith .native ignoring .mod (Opd.ofSafe i32) (Opd.ofSafe i32) (-7) 3 = .ret (-1) ∧
    builtin .mod i32 i32 (-7) 3 = .ret (-1) ∧
    arith .native ignoring .mod (Opd.ofSafe i32) (Opd.ofSafe i32) 7 0 = .fault .ub := by decide +kernel
example : shl .native ignoring (Opd.ofSafe i32) (Opd.ofSafe i32) 1 31 = .ret (-2147483648) ∧
    shl .native ignoring (Opd.ofSafe i32) (Opd.ofSafe i32) 1 32 = .fault .ub ∧
    shl .native ignoring (Opd.ofSafe u32) (Opd.ofSafe u32) 3 31 = .ret 2147483648 ∧
    ¬ ShlSkipped u32 (Opd.ofSafe u32) (Opd.range u8 0 31) := by decide +kernel
example : shr .native ignoring (Opd.ofSafe i32) (Opd.ofSafe i32) (-5) 1 = .ret (-3) ∧
    shr .native ignoring (Opd.ofSafe i32) (Opd.ofSafe i32) 5 (-1) = .fault .ub := by decide +kernel

end

end Verif.Props
