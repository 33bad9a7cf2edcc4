import Verif.Proofs.SafeDiv2

/-!
Helper lemmas: operators under a policy that ignores arithmetic errors.
-/

namespace Verif
open Spec
section
variable [Arch]

/-- an operand that an ignoring policy converts like a built-in value: it is one, or it fits -/
def Plain (R : ITy) (T : Opd) (t : Int) : Prop := T.kind = .builtin ∨ R.In t

theorem castOne_ignore {p : EP} (hp : p.ae = .ignore) {R : ITy} {T : Opd} {t : Int} (hT : T.Wf) (ht : T.Has t)
    (h : Plain R T t) : castOne p R T t = .ret (conv R t) := by
  unfold castOne
  rw [cast_full (hT.has_in ht)]
  rcases hc : castTo R t with v | e
  · obtain ⟨rfl, hi⟩ := castTo_ok hc
    rw [conv_of_in hi]; rfl
  · show (dispatchAndReturn p e >>= _) = _
    rw [handler_ignore hp (castTo_arith hc)]
    rcases h with h | h
    · have he : e ≠ .success := by
        intro he; have := castTo_arith hc; rw [he] at this; cases this
      simp [CR.exception, he, castFallback, h]
    · rw [castTo_of_in h] at hc; cases hc

theorem castingHelper_ignore {p : EP} (hp : p.ae = .ignore) {R : ITy} {T U : Opd} {t u : Int} (hT : T.Wf)
    (ht : T.Has t) (hU : U.Wf) (hu : U.Has u) (lT : litOk R T = true) (lU : litOk R U = true)
    (h1 : Plain R T t) (h2 : Plain R U u) :
    castingHelper p R T U t u = .ret (conv R t, conv R u) := by
  have h : p.ae ≠ .trap := by rw [hp]; decide
  unfold castingHelper
  rw [castStatic_eq hT, castStatic_eq hU, castOne_ignore hp hT ht h1, castOne_ignore hp hU hu h2, lT, lU]
  simp [h]

/-- the checked branch of `+` and `*`: if the checked operation reports an error, the built-in operator is evaluated -/
theorem runChecked_ignore {op : ArithOp} {R : ITy} {f : Int → Int → Int} (hop : Computes op R f) {p : EP}
    (hp : p.ae = .ignore) {T U : Opd} {t u : Int} (hT : T.Wf) (ht : T.Has t) (hU : U.Wf) (hu : U.Has u)
    (lT : litOk R T = true) (lU : litOk R U = true) (h1 : Plain R T t) (h2 : Plain R U u) :
    runChecked op p R T U t u =
      if R.In (f (conv R t) (conv R u)) then .ret (f (conv R t) (conv R u))
      else (do
        let v ← op.ignored R R (conv R t) (conv R u)
        .ret (conv R v)) := by
  have h : p.ae ≠ .trap := by rw [hp]; decide
  unfold runChecked
  rw [castStatic_eq hT, castStatic_eq hU, hop.errs, traps_arith, castingHelper_ignore hp hT ht hU hu lT lU h1 h2]
  simp only [lT, lU, h, ne_eq, not_false_eq_true, and_self, if_true, Out.ret_bind, decide_false,
    Bool.false_eq_true, if_false]
  rw [hop.chk _ _ _ (conv_in R t) (conv_in R u)]
  by_cases g : R.In (f (conv R t) (conv R u))
  · rw [exactOr_of_in g.1 g.2, if_pos g]; rfl
  · rw [if_neg g]
    rcases cv : exactOr R.min R.max (f (conv R t) (conv R u)) with v | e
    · exfalso; apply g
      unfold exactOr at cv
      split_ifs at cv
      exact ⟨by omega, by omega⟩
    · show (dispatchAndReturn p e >>= _) = _
      rw [handler_ignore hp (exactOr_arith cv)]
      have he : e ≠ .success := by
        intro he; have := exactOr_arith cv; rw [he] at this; cases this
      simp [CR.exception, he]

/-- `+` with an ignoring policy -/
theorem runAdd_ignore {p : EP} (hp : p.ae = .ignore) {R : ITy} {T U : Opd} {t u : Int} (hT : T.Wf) (hU : U.Wf)
    (ht : T.Has t) (hu : U.Has u) (lT : litOk R T = true) (lU : litOk R U = true) (h1 : Plain R T t)
    (h2 : Plain R U u) :
    runOp opAdd p R T U t u = (do
      let v ← cAdd R R (conv R t) (conv R u)
      .ret (conv R v)) := by
  obtain ⟨ri, e, _⟩ := resItv_add (R := R) hT hU
  rw [runOp_cases (op := opAdd) e]
  by_cases hs : staticExc opAdd R T U = true
  · rw [if_pos hs, runChecked_ignore (computes_add R) hp hT ht hU hu lT lU h1 h2]
    split_ifs with g
    · rw [(computes_add R).prim _ _ (conv_in R t) (conv_in R u) g |> (show cAdd R R _ _ = _ from ·)]
      rw [Out.ret_bind, conv_of_in g]
    · rfl
  · rw [if_neg hs]; rfl

/-- `*` with an ignoring policy -/
theorem runMul_ignore {p : EP} (hp : p.ae = .ignore) {R : ITy} (hR : R.Ok) {T U : Opd} {t u : Int} (hT : T.Wf)
    (hU : U.Wf) (ht : T.Has t) (hu : U.Has u) (lT : litOk R T = true) (lU : litOk R U = true) (h1 : Plain R T t)
    (h2 : Plain R U u) :
    runOp opMul p R T U t u = (do
      let v ← cMul R R (conv R t) (conv R u)
      .ret (conv R v)) := by
  obtain ⟨ri, e, _⟩ := resItv_mul hR hT hU
  rw [runOp_cases (op := opMul) e]
  by_cases hs : staticExc opMul R T U = true
  · rw [if_pos hs, runChecked_ignore (computes_mul hR) hp hT ht hU hu lT lU h1 h2]
    split_ifs with g
    · rw [(computes_mul hR).prim _ _ (conv_in R t) (conv_in R u) g |> (show cMul R R _ _ = _ from ·)]
      rw [Out.ret_bind, conv_of_in g]
    · rfl
  · rw [if_neg hs]; rfl

/-- `-` with an ignoring policy: the ignored branch adds -/
theorem runSub_ignore {p : EP} (hp : p.ae = .ignore) {R : ITy} {T U : Opd} {t u : Int} (hT : T.Wf) (hU : U.Wf)
    (ht : T.Has t) (hu : U.Has u) (lT : litOk R T = true) (lU : litOk R U = true) (h1 : Plain R T t)
    (h2 : Plain R U u) :
    runOp opSub p R T U t u =
      if R.In (conv R t - conv R u) then .ret (conv R t - conv R u)
      else (do
        let v ← cAdd R R (conv R t) (conv R u)
        .ret (conv R v)) := by
  obtain ⟨ri, e, _⟩ := resItv_sub (R := R) hT hU
  rw [runOp_cases (op := opSub) e]
  by_cases hs : staticExc opSub R T U = true
  · rw [if_pos hs, runChecked_ignore (computes_sub R) hp hT ht hU hu lT lU h1 h2]; rfl
  · rw [if_neg hs]
    obtain ⟨a, b, c⟩ := sub_static hT hU (by simpa using hs) ht hu
    rw [runPlain_eq (computes_sub R) a b c, conv_of_in a, conv_of_in b, if_pos c]

/-- division of two values as checked results -/
theorem crDiv_values {R : ITy} {a b : Int} (ha : R.In a) (hb : R.In b) (h0 : b ≠ 0) (h1 : R.max < a.tdiv b) :
    crDiv R (.ok a) (.ok b) = .ret (.err .positive_overflow_error) := by
  have hm := R.max_ge
  have hab : 0 < a.tdiv b := by omega
  have ha0 : a ≠ 0 := by rintro rfl; simp at hab
  unfold crDiv
  rw [prodFlag_ok ha, prodFlag_ok hb]
  have e : divide R make a b = .ret (.err .positive_overflow_error) := by
    rw [divide_eq ha hb, if_neg h0, if_pos h1]; rfl
  split_ifs <;> first | omega | exact e

/-- `/` with an ignoring policy in a type that is not widened -/
theorem runDiv_ignore {p : EP} (hp : p.ae = .ignore) {R : ITy} (hR : R.Ok) {T U : Opd} (hT : T.Wf) (hU : U.Wf)
    (hf : Fits R U) (hB : tempBase R T U = .ret R) (hprom : promote R = R) (lT : litOk R T = true)
    (lU : litOk R U = true) {t u : Int}
    (ht : T.Has t) (hu : U.Has u) (h1 : Plain R T t) (h2 : Plain R U u) :
    runDiv p R T U t u = cDiv R R (conv R t) (conv R u) := by
  have h : p.ae ≠ .trap := by rw [hp]; decide
  obtain ⟨ri, e, pl, pu, _⟩ := divItv_total (R := R) (t := ⟨castTo R T.lo, castTo R T.hi⟩)
    (u := ⟨castTo R U.lo, castTo R U.hi⟩) castTo_proper castTo_proper castTo_proper castTo_proper
  unfold runDiv runDivMod
  rw [resItv_of hT hU e, castItv_eq hU]
  simp only [Out.ret_bind]
  have ia := conv_in R t
  have ib := conv_in R u
  have hcd : cDiv R R (conv R t) (conv R u) =
      if conv R u = 0 then .fault .ub else cWrap R ((conv R t).tdiv (conv R u)) := by
    unfold cDiv
    rw [uac_self, hprom, conv_of_in ia, conv_of_in ib]
  by_cases hh : divExcPossible R ⟨castTo R U.lo, castTo R U.hi⟩ ri = true
  · rw [if_pos hh, hB]
    simp only [Out.ret_bind]
    rw [castStatic_eq hT, castStatic_eq hU, traps_div, castingHelper_ignore hp hT ht hU hu lT lU h1 h2, lT, lU]
    simp only [h, ne_eq, not_false_eq_true, and_self, if_true, Out.ret_bind, decide_false,
      Bool.false_eq_true, if_false]
    rw [divide_eq ia ib, hcd]
    by_cases z : conv R u = 0
    · rw [if_pos z, if_pos z, handler_ignore hp rfl, z]
      obtain ⟨e', he', hs'⟩ := crDiv_by_zero (R := R) (c := .ok (conv R t)) ia
      show (crDiv R (.ok (conv R t)) (.ok 0) >>= _) = _
      rw [he']; rfl
    · rw [if_neg z, if_neg z]
      by_cases g : R.max < (conv R t).tdiv (conv R u)
      · rw [if_pos g, handler_ignore hp rfl]
        show (crDiv R (.ok (conv R t)) (.ok (conv R u)) >>= _) = _
        rw [crDiv_values ia ib z g]
        have hs : R.signed = true := by
          rcases hs : R.signed with _ | _
          · exfalso
            have n1 := ia.nonneg hs; have n2 := ib.nonneg hs
            have := ia.2
            have := Int.tdiv_le_self (conv R u) n1
            omega
          · rfl
        unfold cWrap
        rw [hs, if_pos rfl, if_neg (fun q => by have := q.2; omega)]; rfl
      · rw [if_neg g]
        have hin : R.In ((conv R t).tdiv (conv R u)) := by
          refine tdiv_in ia ib z ?_
          rintro ⟨g1, g2, g3⟩
          rw [g2, Int.tdiv_neg, Int.tdiv_one, g3] at g
          have := ITy.min_eq R; rw [g1] at this; simp at this; omega
        show Out.ret (conv R ((conv R t).tdiv (conv R u))) = _
        rw [conv_of_in hin, cWrap_of_in hin]
  · rw [if_neg hh]
    have hh' : divExcPossible R ⟨castTo R U.lo, castTo R U.hi⟩ ri = false := by simpa using hh
    obtain ⟨i1, i2, i3, i4⟩ := div_static hT hU hf e hh' ht hu
    rw [conv_of_in i1, conv_of_in i2, cDiv_eq (in_uac_self i1) (in_uac_self i2) i3 (in_uac_self i4), Out.ret_bind,
      conv_of_in i4]

end
end Verif
