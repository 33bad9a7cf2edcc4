import Verif.Props.SafeDiv
import Verif.Props.Shift
import Verif.Props.Types

/-!
Property C56: the trap policy (C30) for `/`, `%`, `<<` and `>>`: with a trapping policy an operator either does not compile or is exact for all
values of its operand types.
-/

namespace Verif.Props
open Spec
section
variable [Arch]

private theorem divMod_trap {f : ITy → Itv CR → Itv CR → Out (Itv CR)} {prim : ITy → ITy → Int → Int → Out Int}
    {chk : ITy → Handler → Int → Int → Out CR} {g : ITy → CR → CR → Out CR} {es : List Err} {p : EP} (hp : p.ae = .trap)
    {R : ITy} (hR : R.Ok) {T U : Opd} (hT : T.Wf) (hU : U.Wf) {ri : Itv CR} (e : resItv f R T U = .ret ri) (t u : Int) :
    runDivMod f prim chk g es p R T U t u =
      if divExcPossible R ⟨castTo R U.lo, castTo R U.hi⟩ ri then .fault .illFormed
      else (do
        let v ← prim R R (conv R t) (conv R u)
        .ret (conv R v)) := by
  obtain ⟨B, eB, _⟩ := tempBase_spec hR T U
  unfold runDivMod
  rw [e, castItv_eq hU, eB]
  simp only [Out.ret_bind]
  split
  · rw [castStatic_eq hT]; simp [hp]
  · rfl

/-- `/` with a trapping policy, for a result type that represents the divisors (or a divisor range around zero): the
program is rejected, or the quotient is exact (and the divisor never zero) for all values. -/
theorem C56_div (pp : PP) (hpp : pp.Wf) (p : EP) (hp : p.ae = .trap) (T U : Opd) (hT : T.Wf) (hU : U.Wf)
    (h1 : ∀ R, pp.result .div T U = .ret R → (U.lo ≤ 0 ∧ 0 ≤ U.hi) ∨ FitsIn R U) :
    (∀ t u, T.Has t → U.Has u → arith pp p .div T U t u = .fault .illFormed) ∨
    (∀ t u, T.Has t → U.Has u → u ≠ 0 ∧ arith pp p .div T U t u = .ret (t.tdiv u)) := by
  unfold arith
  rcases PP.result_total hpp (op := .div) (by decide) hT hU with ⟨R, e, hR⟩ | e
  · rw [show Arith.div.binOp = .div from rfl, e]
    simp only [Out.ret_bind]
    show (∀ t u, _ → _ → runDiv p R T U t u = _) ∨ (∀ t u, _ → _ → _ ∧ runDiv p R T U t u = _)
    obtain ⟨ri, e', pl, pu, _⟩ := divItv_total (R := R) (t := ⟨castTo R T.lo, castTo R T.hi⟩)
      (u := ⟨castTo R U.lo, castTo R U.hi⟩) castTo_proper castTo_proper castTo_proper castTo_proper
    by_cases hx : divExcPossible R ⟨castTo R U.lo, castTo R U.hi⟩ ri = true
    · left; intro t u _ _
      unfold runDiv
      rw [divMod_trap hp hR hT hU (resItv_of hT hU e'), if_pos hx]
    · right; intro t u ht hu
      have hf : FitsIn R U := by
        rcases h1 R e with h | h
        · have := divExc_zero (R := R) (T := T) h.1 h.2
          unfold divExc at this; rw [e'] at this; exact absurd this hx
        · exact h
      obtain ⟨i1, i2, i3, i4⟩ := div_static hT hU hf e' (by simpa using hx) ht hu
      refine ⟨i3, ?_⟩
      unfold runDiv
      rw [divMod_trap hp hR hT hU (resItv_of hT hU e'), if_neg hx, conv_of_in i1, conv_of_in i2,
        cDiv_eq (in_uac_self i1) (in_uac_self i2) i3 (in_uac_self i4), Out.ret_bind, conv_of_in i4]
  · left; intro t u _ _
    rw [show Arith.div.binOp = .div from rfl, e]; rfl

/-- `/` with a trapping policy under native promotion, no restriction. -/
theorem C56_div_native (p : EP) (hp : p.ae = .trap) (T U : Opd) (hT : T.Wf) (hU : U.Wf) :
    (∀ t u, T.Has t → U.Has u → arith .native p .div T U t u = .fault .illFormed) ∨
    (∀ t u, T.Has t → U.Has u → u ≠ 0 ∧ arith .native p .div T U t u = .ret (t.tdiv u)) :=
  C56_div .native trivial p hp T U hT hU (fun R h => Or.inr (by cases h; exact (native_fits hT hU).2))

/-- `%` with a trapping policy, for a result type that represents both operands and operand types that do not contain
`MIN % -1`: the program is rejected, or the remainder is exact (and the divisor never zero) for all values. -/
theorem C56_mod_partial (pp : PP) (hpp : pp.Wf) (p : EP) (hp : p.ae = .trap) (T U : Opd) (hT : T.Wf) (hU : U.Wf)
    (h1 : ∀ R, pp.result .mod T U = .ret R → (U.lo ≤ 0 ∧ 0 ≤ U.hi) ∨ (FitsIn R T ∧ FitsIn R U))
    (h2 : ∀ R, pp.result .mod T U = .ret R → R.signed = true → T.Has R.min → ¬ U.Has (-1)) :
    (∀ t u, T.Has t → U.Has u → arith pp p .mod T U t u = .fault .illFormed) ∨
    (∀ t u, T.Has t → U.Has u → u ≠ 0 ∧ arith pp p .mod T U t u = .ret (t.tmod u)) := by
  unfold arith
  rcases PP.result_total hpp (op := .mod) (by decide) hT hU with ⟨R, e, hR⟩ | e
  · rw [show Arith.mod.binOp = .mod from rfl, e]
    simp only [Out.ret_bind]
    show (∀ t u, _ → _ → runMod p R T U t u = _) ∨ (∀ t u, _ → _ → _ ∧ runMod p R T U t u = _)
    obtain ⟨ri, e', pl, pu, _⟩ := modItv_total (R := R) (t := ⟨castTo R T.lo, castTo R T.hi⟩)
      (u := ⟨castTo R U.lo, castTo R U.hi⟩) castTo_proper castTo_proper castTo_proper castTo_proper
    by_cases hx : divExcPossible R ⟨castTo R U.lo, castTo R U.hi⟩ ri = true
    · left; intro t u _ _
      unfold runMod
      rw [divMod_trap hp hR hT hU (resItv_of hT hU e'), if_pos hx]
    · right; intro t u ht hu
      have hf : FitsIn R T ∧ FitsIn R U := by
        rcases h1 R e with h | h
        · have := modExc_zero (R := R) (T := T) h.1 h.2
          unfold modExc at this; rw [e'] at this; exact absurd this hx
        · exact h
      obtain ⟨i1, i2, i3⟩ := mod_static hT hU hf.1 hf.2 e' (by simpa using hx) ht hu
      have i4 : R.In (t.tdiv u) := tdiv_in i1 i2 i3 (fun g => by
        obtain ⟨g1, g2, g3⟩ := g
        exact h2 R e g1 (g3 ▸ ht) (g2 ▸ hu))
      refine ⟨i3, ?_⟩
      unfold runMod
      rw [divMod_trap hp hR hT hU (resItv_of hT hU e'), if_neg hx, conv_of_in i1, conv_of_in i2,
        cMod_eq (in_uac_self i1) (in_uac_self i2) i3 (fun _ => in_uac_self i4), Out.ret_bind, conv_of_in (tmod_in i1)]
  · left; intro t u _ _
    rw [show Arith.mod.binOp = .mod from rfl, e]; rfl

/-- `<<` with a trapping policy on covered operand types: rejected, or exact for all values. -/
theorem C56_shl_partial (pp : PP) (hpp : pp.Wf) (p : EP) (hp : p.ae = .trap) (T U : Opd) (hT : T.Wf) (hU : U.Wf)
    (hc : ∀ R, pp.result .shl T U = .ret R → ShlCovered R T U) :
    (∀ t u, T.Has t → U.Has u → shl pp p T U t u = .fault .illFormed) ∨
    (∀ t u, T.Has t → U.Has u → 0 ≤ u ∧ shl pp p T U t u = .ret (t * 2 ^ u.toNat)) := by
  unfold shl
  rcases PP.result_shift hpp (Or.inl rfl) hT hU with ⟨R, e, hR⟩ | e <;> rw [e]
  · simp only [Out.ret_bind]
    by_cases hx : staticExc opShl R T U = true
    · left; intro t u _ _
      obtain ⟨ri, e', _⟩ := shl_res hR hT hU
      rw [runOp_cases (op := opShl) e', if_pos hx, runChecked_trap hp hT]
    · right; intro t u ht hu
      obtain ⟨g, _, g0, _⟩ := shl_static (p := p) hR hT hU (hc R e) hx ht hu
      exact ⟨g0, g⟩
  · exact Or.inl fun _ _ _ _ => rfl

/-- `>>` with a trapping policy on covered operand types, no shift by the full width of an unsigned type: rejected, or
exact for all values. -/
theorem C56_shr_partial (pp : PP) (hpp : pp.Wf) (p : EP) (hp : p.ae = .trap) (T U : Opd) (hT : T.Wf) (hU : U.Wf)
    (hc : ∀ R, pp.result .shr T U = .ret R → ShrCovered R T U ∧ ∀ u, U.Has u → ¬ FullWidth R u) :
    (∀ t u, T.Has t → U.Has u → shr pp p T U t u = .fault .illFormed) ∨
    (∀ t u, T.Has t → U.Has u → 0 ≤ u ∧ 0 ≤ t ∧ shr pp p T U t u = .ret (t / 2 ^ u.toNat)) := by
  unfold shr
  rcases PP.result_shift hpp (Or.inr rfl) hT hU with ⟨R, e, hR⟩ | e <;> rw [e]
  · simp only [Out.ret_bind]
    obtain ⟨c1, c2⟩ := hc R e
    unfold runShr
    rcases shr_res hR hT hU with e' | ⟨ri, e', _⟩
    · rw [e']; exact Or.inl fun _ _ _ _ => rfl
    rw [e', castItv_eq hT, castItv_eq hU]
    simp only [Out.ret_bind]
    by_cases hx : shrExcPossible R ⟨castTo R T.lo, castTo R T.hi⟩ ⟨castTo R U.lo, castTo R U.hi⟩ ri = true
    · left; intro t u _ _
      rw [if_pos hx, runChecked_trap hp hT]
    · right; intro t u ht hu
      obtain ⟨g, g1, g0, _⟩ := shr_static hR hT hU c1 e' hx ht hu (c2 u hu)
      rw [if_neg hx]
      exact ⟨g0, g1, g⟩
  · exact Or.inl fun _ _ _ _ => rfl

/-- The bounds of the result types hold with a trapping policy too: quotient, for a result type that represents both
operands. -/
theorem C56_div_policy_bounds_partial (pp : PP) (hpp : pp.Wf) (p : EP) (hp : p.ae = .trap) (T U : Opd) (hT : T.Wf) (hU : U.Wf)
    (hf : ∀ R, pp.result .div T U = .ret R → FitsIn R T ∧ FitsIn R U) (t u v : Int) (ht : T.Has t)
    (hu : U.Has u) (hv : arith pp p .div T U t u = .ret v) :
    ∃ S, arithTy pp .div T U = .ret S ∧ S.Wf ∧ S.kind = .safe ∧ S.Has v := by
  rcases PP.result_total hpp (op := .div) (by decide) hT hU with ⟨R, eR, hR⟩ | eR
  · obtain ⟨f1, f2⟩ := hf R eR
    rcases C56_div pp hpp p hp T U hT hU (fun R h => Or.inr (hf R h).2) with h | h
    · rw [h t u ht hu] at hv; cases hv
    · obtain ⟨h0, h⟩ := h t u ht hu
      rw [h] at hv; cases hv
      obtain ⟨ri, e, p1, p2, hb⟩ := divItv_contains f1 f2 ht hu h0
      have hi : R.In (t.tdiv u) := by
        have hv := h
        unfold arith at hv
        rw [show Arith.div.binOp = .div from rfl, eR, Out.ret_bind] at hv
        change runDiv p R T U t u = _ at hv
        unfold runDiv at hv
        rw [divMod_trap hp hR hT hU (resItv_of hT hU e)] at hv
        split at hv
        · cases hv
        · rename_i hx
          exact (div_static hT hU f2 e (by simpa using hx) ht hu).2.2.2
      obtain ⟨S, h1, h2, h3, _, h4⟩ := resTy_has hR (resItv_of hT hU e) p1 p2 (held_of_between hb) hi
      refine ⟨S, ?_, h2, h3, h4⟩
      unfold arithTy
      rw [show Arith.div.binOp = .div from rfl, eR, Out.ret_bind]
      exact h1
  · unfold arith at hv
    rw [show Arith.div.binOp = .div from rfl, eR] at hv
    cases hv

/-- Quotient under native promotion, no restriction. -/
theorem C56_div_bounds (p : EP) (hp : p.ae = .trap) (T U : Opd) (hT : T.Wf) (hU : U.Wf) (t u v : Int) (ht : T.Has t)
    (hu : U.Has u) (hv : arith .native p .div T U t u = .ret v) :
    ∃ S, arithTy .native .div T U = .ret S ∧ S.Wf ∧ S.kind = .safe ∧ S.Has v :=
  C56_div_policy_bounds_partial .native trivial p hp T U hT hU (fun R h => by cases h; exact native_fits hT hU)
    t u v ht hu hv

/-- Likewise for `<<`. -/
theorem C56_shl_bounds_partial (pp : PP) (hpp : pp.Wf) (p : EP) (hp : p.ae = .trap) (T U : Opd) (hT : T.Wf) (hU : U.Wf)
    (hc : ∀ R, pp.result .shl T U = .ret R → ShlCovered R T U) (t u v : Int) (ht : T.Has t) (hu : U.Has u)
    (h : shl pp p T U t u = .ret v) : ∃ S, shlTy pp T U = .ret S ∧ S.Wf ∧ S.kind = .safe ∧ S.Has v := by
  unfold shl at h
  unfold shlTy
  rcases PP.result_shift hpp (Or.inl rfl) hT hU with ⟨R, e, hR⟩ | e <;> rw [e] at h ⊢
  · simp only [Out.ret_bind] at h ⊢
    obtain ⟨ri, e', p1, p2, _, hh⟩ := shl_res hR hT hU
    by_cases hx : staticExc opShl R T U = true
    · rw [runOp_cases (op := opShl) e', if_pos hx, runChecked_trap hp hT] at h; cases h
    · obtain ⟨g, g1, g0, g2, g3, g4⟩ := shl_static (p := p) hR hT hU (hc R e) hx ht hu
      rw [g] at h; cases h
      obtain ⟨S, h1, h2, h3, _, h4⟩ := resTy_has hR e' p1 p2 (hh t u ht hu g2 g4 g0 (fun _ => by omega)) g4
      exact ⟨S, h1, h2, h3, h4⟩
  · cases h

/-- Likewise for `>>`. -/
theorem C56_shr_bounds_partial (pp : PP) (hpp : pp.Wf) (p : EP) (hp : p.ae = .trap) (T U : Opd) (hT : T.Wf) (hU : U.Wf)
    (hc : ∀ R, pp.result .shr T U = .ret R → ShrCovered R T U ∧ ∀ u, U.Has u → ¬ FullWidth R u) (t u v : Int) (ht : T.Has t)
    (hu : U.Has u) (h : shr pp p T U t u = .ret v) : ∃ S, shrTy pp T U = .ret S ∧ S.Wf ∧ S.kind = .safe ∧ S.Has v := by
  unfold shr at h
  unfold shrTy
  rcases PP.result_shift hpp (Or.inr rfl) hT hU with ⟨R, e, hR⟩ | e <;> rw [e] at h ⊢
  · simp only [Out.ret_bind] at h ⊢
    obtain ⟨c1, c2⟩ := hc R e
    unfold runShr at h
    rcases shr_res hR hT hU with e' | ⟨ri, e', p1, p2, hh, _⟩
    · rw [e'] at h; cases h
    rw [e', castItv_eq hT, castItv_eq hU] at h
    simp only [Out.ret_bind] at h
    by_cases hx : shrExcPossible R ⟨castTo R T.lo, castTo R T.hi⟩ ⟨castTo R U.lo, castTo R U.hi⟩ ri = true
    · rw [if_pos hx, runChecked_trap hp hT] at h; cases h
    · obtain ⟨g, g1, g0, g2, g3, g4⟩ := shr_static hR hT hU c1 e' hx ht hu (c2 u hu)
      rw [if_neg hx, g] at h; cases h
      obtain ⟨S, h1, h2, h3, _, h4⟩ := resTy_has hR e' p1 p2
        (hh t u ht hu g2 g3 g1 g0 (fun hL => c1 ⟨hL.1, hL.2.1, hL.2.2.1⟩)) g4
      exact ⟨S, h1, h2, h3, h4⟩
  · cases h

end

section
attribute [local instance] lp64

/-- The trap policy accepts `safe_signed_range<INT_MIN, 0> % safe_signed_range<-3, -1>` and `INT_MIN % -1` is undefined. -/
theorem C56_mod_refuted :
    arith .native looseTrap .mod (Opd.range i32 (-2147483648) 0) (Opd.range i32 (-3) (-1)) (-2147483648) (-1) = .fault .ub := by
  decide +kernel

/-- The trap policy accepts `[0,63] << [-1,1]`, which is undefined for the count -1. -/
theorem C56_shl_refuted :
    shl .native strictTrap (Opd.range i32 0 63) (Opd.range i32 (-1) 1) 1 (-1) = .fault .ub := by decide +kernel

-- both alternatives of each theorem occur
example : arith .native looseTrap .div (Opd.ofSafe i32) (Opd.ofSafe i32) 7 2 = .fault .illFormed ∧
    arith .native looseTrap .div (Opd.ofSafe i32) (Opd.range i32 2 9) 7 2 = .ret 3 := by decide +kernel
example : PP.automatic.result .div (Opd.range i32 (-100) 100) (Opd.range i32 2 9) = .ret i8 ∧ FitsIn i8 (Opd.range i32 2 9) ∧
    arith .automatic looseTrap .div (Opd.range i32 (-100) 100) (Opd.range i32 2 9) (-99) 2 = .ret (-49) := by decide +kernel
example : arith .native looseTrap .mod (Opd.ofSafe i32) (Opd.range i32 0 9) 7 2 = .fault .illFormed ∧
    arith .native looseTrap .mod (Opd.ofSafe i32) (Opd.range i32 2 9) (-7) 2 = .ret (-1) := by decide +kernel
example : ShlCovered i32 (Opd.range i32 0 63) (Opd.range i32 0 4) ∧
    shl .native looseTrap (Opd.range i32 0 63) (Opd.range i32 0 4) 63 4 = .ret 1008 ∧
    shl .native looseTrap (Opd.range i32 0 63) (Opd.range i32 0 30) 63 4 = .fault .illFormed := by decide +kernel
example : ShrCovered i32 (Opd.range i32 0 63) (Opd.range i32 0 4) ∧
    shr .native looseTrap (Opd.range i32 0 63) (Opd.range i32 0 4) 63 4 = .ret 3 ∧
    shr .native looseTrap (Opd.ofSafe i32) (Opd.range i32 0 4) 63 4 = .fault .illFormed := by decide +kernel
end

end Verif.Props
