import Verif.Proofs.Quiet

/-!
Helper lemmas for C71: operations that return fit their types.
-/

namespace Verif
open Spec Lang Props

section
variable [Arch]

/-! ### a policy that traps -/

private theorem runOp_any {op : ArithOp} {p : EP} (hp : p.ae = .trap) {R : ITy} {T U : Opd} (hT : T.Wf) {ri : Itv CR}
    (e : resItv op.itv R T U = .ret ri) :
    (∀ t u, runOp op p R T U t u = .fault .illFormed) ∨ ∀ p' t u, runOp op p R T U t u = runOp op p' R T U t u := by
  by_cases h : staticExc op R T U = true
  · left; intro t u; rw [runOp_cases e, if_pos h, runChecked_trap hp hT]
  · right; intro p' t u; rw [runOp_cases e, runOp_cases e, if_neg h, if_neg h]

private theorem runDivMod_any {f : ITy → Itv CR → Itv CR → Out (Itv CR)} {prim : ITy → ITy → Int → Int → Out Int}
    {chk : ITy → Handler → Int → Int → Out CR} {g : ITy → CR → CR → Out CR} {es : List Err} {p : EP} (hp : p.ae = .trap)
    {R : ITy} (hR : R.Ok) {T U : Opd} (hT : T.Wf) (hU : U.Wf) {ri : Itv CR} (e : resItv f R T U = .ret ri) :
    (∀ t u, runDivMod f prim chk g es p R T U t u = .fault .illFormed) ∨
    ∀ p' t u, runDivMod f prim chk g es p R T U t u = runDivMod f prim chk g es p' R T U t u := by
  obtain ⟨B, eB, _⟩ := tempBase_spec hR T U
  unfold runDivMod
  rw [e, castItv_eq hU, eB]
  simp only [Out.ret_bind]
  by_cases h : divExcPossible R ⟨castTo R U.lo, castTo R U.hi⟩ ri = true
  · left; intro t u; rw [if_pos h, castStatic_eq hT]; simp [hp]
  · right; intro p' t u; rw [if_neg h, if_neg h]

/-- with a policy that traps, an operator is rejected or computes the same as with any other policy -/
theorem op_any {pp : PP} (hpp : pp.Wf) {p : EP} (hp : p.ae = .trap) (o : Op2) {T U : Opd} (hT : T.Wf) (hU : U.Wf) :
    (∀ t u, o.safeVal pp p T U t u = .fault .illFormed) ∨ ∀ p' t u, o.safeVal pp p T U t u = o.safeVal pp p' T U t u := by
  cases o with
  | ar a =>
    show (∀ t u, arith pp p a T U t u = _) ∨ ∀ p' t u, arith pp p a T U t u = arith pp p' a T U t u
    unfold arith
    rcases PP.result_total hpp (op := a.binOp) (by cases a <;> decide) hT hU with ⟨R, e, hR⟩ | e
    · rw [e]
      simp only [Out.ret_bind]
      cases a with
      | add => obtain ⟨ri, e', _⟩ := resItv_add (R := R) hT hU; exact runOp_any (op := opAdd) hp hT e'
      | sub => obtain ⟨ri, e', _⟩ := resItv_sub (R := R) hT hU; exact runOp_any (op := opSub) hp hT e'
      | mul => obtain ⟨ri, e', _⟩ := resItv_mul hR hT hU; exact runOp_any (op := opMul) hp hT e'
      | div =>
        obtain ⟨ri, e', _⟩ := divItv_total (R := R) (t := ⟨castTo R T.lo, castTo R T.hi⟩)
          (u := ⟨castTo R U.lo, castTo R U.hi⟩) castTo_proper castTo_proper castTo_proper castTo_proper
        exact runDivMod_any hp hR hT hU (resItv_of hT hU e')
      | mod =>
        obtain ⟨ri, e', _⟩ := modItv_total (R := R) (t := ⟨castTo R T.lo, castTo R T.hi⟩)
          (u := ⟨castTo R U.lo, castTo R U.hi⟩) castTo_proper castTo_proper castTo_proper castTo_proper
        exact runDivMod_any hp hR hT hU (resItv_of hT hU e')
    · rw [e]; exact Or.inl fun _ _ => rfl
  | bit b => exact Or.inr fun _ _ _ => rfl
  | shl =>
    show (∀ t u, shl pp p T U t u = _) ∨ ∀ p' t u, shl pp p T U t u = shl pp p' T U t u
    unfold shl
    rcases PP.result_shift hpp (Or.inl rfl) hT hU with ⟨R, e, hR⟩ | e <;> rw [e]
    · simp only [Out.ret_bind]
      obtain ⟨ri, e', _⟩ := shl_res hR hT hU
      exact runOp_any (op := opShl) hp hT e'
    · exact Or.inl fun _ _ => rfl
  | shr =>
    show (∀ t u, shr pp p T U t u = _) ∨ ∀ p' t u, shr pp p T U t u = shr pp p' T U t u
    unfold shr
    rcases PP.result_shift hpp (Or.inr rfl) hT hU with ⟨R, e, hR⟩ | e <;> rw [e]
    · simp only [Out.ret_bind]
      unfold runShr
      rcases shr_res hR hT hU with e' | ⟨ri, e', _⟩ <;> rw [e']
      · exact Or.inl fun _ _ => rfl
      · rw [castItv_eq hT, castItv_eq hU]
        simp only [Out.ret_bind]
        split
        · left; intro t u; rw [runChecked_trap hp hT]
        · exact Or.inr fun _ _ _ => rfl
    · exact Or.inl fun _ _ => rfl

/-! ### operators that return fit -/

omit [Arch] in
theorem cmpIn_ret {R : ITy} {t u : Int} {b c : Bool} (h : cmpIn R t u b = .ret c) : R.In t ∧ R.In u := by
  unfold cmpIn at h
  rcases ct : castTo R t with a | e <;> rw [ct] at h
  · rcases cu : castTo R u with b | e <;> rw [cu] at h
    · exact ⟨(castTo_ok ct).2, (castTo_ok cu).2⟩
    · cases h
  · cases h

theorem shlIn_fits {R : ITy} {t u v : Int} (h : shlIn R t u = .ret v) :
    R.In t ∧ R.In u ∧ 0 ≤ u ∧ R.In (t * 2 ^ u.toNat) ∧ (u = 0 ∨ 0 < t ∨ (t = 0 ∧ u < R.digits)) := by
  have hz := R.min_nonpos
  unfold shlIn at h
  rcases ct : castTo R t with a | e
  · obtain ⟨rfl, it⟩ := castTo_ok ct
    rcases cu : castTo R u with b | e
    · obtain ⟨rfl, iu⟩ := castTo_ok cu
      rw [ct, cu] at h
      simp only [orThrow, Out.ret_bind] at h
      split_ifs at h with h1 h2 h3 h4 h5
      · subst h1; simp; exact ⟨it, iu, it⟩
      · have := mul_pow_ge (a := a) (b := b) (by omega)
        refine ⟨it, iu, by omega, ⟨by omega, by omega⟩, Or.inr ?_⟩
        by_cases h0 : a = 0
        · refine Or.inr ⟨h0, ?_⟩
          have : b ≠ R.digits := fun h => h5 (Or.inr ⟨h0, h⟩)
          omega
        · left; omega
    · rw [ct, cu] at h; cases h
  · rw [ct] at h; cases h

theorem shrIn_fits {R : ITy} {t u v : Int} (h : shrIn R t u = .ret v) :
    R.In t ∧ R.In u ∧ 0 ≤ u ∧ 0 ≤ t ∧ u ≤ R.digits := by
  unfold shrIn at h
  rcases ct : castTo R t with a | e
  · obtain ⟨rfl, it⟩ := castTo_ok ct
    rcases cu : castTo R u with b | e
    · obtain ⟨rfl, iu⟩ := castTo_ok cu
      rw [ct, cu] at h
      simp only [orThrow, Out.ret_bind] at h
      split_ifs at h with h1 h2 h3 h4
      exact ⟨it, iu, by omega, by omega, by omega⟩
    · rw [ct, cu] at h; cases h
  · rw [ct] at h; cases h

theorem shl_static_count {R : ITy} (hR : R.Ok) {T U : Opd} (hT : T.Wf) (hU : U.Wf) (hc : ShlCovered R T U)
    (hx : ¬ staticExc opShl R T U = true) {u : Int} (hu : U.Has u) : u < R.digits := by
  obtain ⟨ri, e, p1, p2, h1, _⟩ := shl_res hR hT hU
  have h' : excPossible R ri = false := by
    unfold staticExc at hx; rw [show resItv opShl.itv R T U = .ret ri from e] at hx; simpa using hx
  obtain ⟨_, ⟨w, hw, iw⟩⟩ := excPossible_false h' p1 p2
  have u2 := hu.2
  obtain ⟨h0, hc⟩ := hc
  have hU0 : 0 ≤ U.hi := by have := hU.2.2.2.1; rcases hc with h | h <;> omega
  have hle := h1 h0 hU0 w hw
  by_contra hn
  have g3 : (2 : Int) ^ u.toNat ≤ R.max := by
    have := mul_pow_mono (a := 1) (b := u) (t := T.hi) (u := U.hi) (by omega) (by omega) u2
    omega
  have := two_pow_le (show R.digits ≤ u.toNat by omega)
  unfold ITy.max at g3
  omega

omit [Arch] in
theorem in_narrow {R B : ITy} (hs : B.signed = R.signed) {T : Opd} (hf : FitsIn R T) {t : Int} (ht : T.Has t) (h : B.In t) :
    R.In t := by
  have h1 := ht.1; have h2 := ht.2; have h3 := hf.1
  refine ⟨?_, by omega⟩
  rcases hr : R.signed with _ | _
  · have h4 := h.1
    have e1 := ITy.min_eq R; have e2 := ITy.min_eq B
    rw [hr] at e1; rw [hs, hr] at e2
    simp at e1 e2; omega
  · have := hf.2 hr; omega

/-- an operator that returns, with a policy that throws -/
theorem op_fits_throw {pp : PP} (hpp : pp.Wf) {p : EP} (hp : p.ae = .throw) {o : Op2} {T U : Opd} (hT : T.Wf)
    (hU : U.Wf) (hc : OpCovered pp p T U o) {t u v : Int} (ht : T.Has t) (hu : U.Has u)
    (h : o.safeVal pp p T U t u = .ret v) {R : ITy} (e : pp.result (opName o) T U = .ret R) : TyFits R o T U t u := by
  cases o with
  | ar a =>
    have hR : R.Ok := by
      rcases PP.result_total hpp (op := a.binOp) (by cases a <;> decide) hT hU with ⟨R', e', hR⟩ | e'
      · rw [show pp.result a.binOp T U = _ from e] at e'; cases e'; exact hR
      · rw [show pp.result a.binOp T U = _ from e] at e'; cases e'
    have e : pp.result a.binOp T U = .ret R := e
    have h : arith pp p a T U t u = .ret v := h
    unfold arith at h
    rw [e, ret_bind] at h
    cases a with
    | add =>
      have h : runOp opAdd p R T U t u = .ret v := h
      rw [runAdd_throw hp hT hU ht hu] at h
      split at h
      · cases h
      · obtain ⟨_, a, b, c⟩ := exactIn_ret h
        exact Or.inl ⟨a, b, ⟨_, rfl, c⟩, nofun, nofun⟩
    | sub =>
      have h : runOp opSub p R T U t u = .ret v := h
      rw [runSub_throw hp hT hU ht hu] at h
      split at h
      · cases h
      · obtain ⟨_, a, b, c⟩ := exactIn_ret h
        exact Or.inl ⟨a, b, ⟨_, rfl, c⟩, nofun, nofun⟩
    | mul =>
      have h : runOp opMul p R T U t u = .ret v := h
      rw [runMul_throw hp hR hT hU ht hu] at h
      split at h
      · split at h
        · obtain ⟨_, a, b, c⟩ := exactIn_ret h
          exact Or.inl ⟨a, b, ⟨_, rfl, c⟩, nofun, nofun⟩
        · cases h
      · rename_i hx
        rcases mul_static_fits hR hT hU (by simpa using hx) ht hu with ⟨a, b, c⟩ | g
        · exact Or.inl ⟨a, b, ⟨_, rfl, c⟩, nofun, nofun⟩
        · exact Or.inr ⟨rfl, g⟩
    | div =>
      have h : runDiv p R T U t u = .ret v := h
      obtain ⟨f1, f2, hw⟩ := hc R e
      obtain ⟨B, eB, hs, hl, hq⟩ := runDiv_throw hp hR hT hU (fun _ => f2)
      have side : B = R ∨ R.In (t.tdiv u) := by
        rcases hw with hw | hw
        · rw [tempBase_self hR hw.1 hw.2] at eB
          exact Or.inl (Out.ret.inj eB).symm
        · right
          by_cases h0 : u = 0
          · subst h0; rw [Int.tdiv_zero]; exact R.in_zero
          · exact hw t u ht hu h0
      rw [hq ht hu side] at h
      split at h
      · cases h
      · obtain ⟨rfl, a, b, h0, c⟩ := quotIn_ret h
        have a' := in_narrow hs f1 ht a
        have b' := in_narrow hs f2 hu b
        refine Or.inl ⟨a', b', ⟨t.tdiv u, by simp [imath, h0], ?_⟩, nofun, nofun⟩
        rcases side with rfl | side
        · exact c
        · exact side
    | mod =>
      have h : runMod p R T U t u = .ret v := h
      obtain ⟨hw, hm⟩ := hc.1 R e
      obtain ⟨B, eB, hs, hl, hq⟩ := runMod_throw hp hR hT hU
        (fun _ => ⟨fits_of_digits hT hw.1, fits_of_digits hU hw.2⟩)
      rw [tempBase_self hR hw.1 hw.2] at eB
      obtain rfl := Out.ret.inj eB
      rw [hq ht hu (fun g => hm g.1 (g.2.1 ▸ ht)) (fun _ g => hm g.1 (g.2.1 ▸ ht)) (fun g _ => tmod_in g)] at h
      split at h
      · cases h
      · obtain ⟨_, a, b, h0, _⟩ := remIn_ret h
        exact Or.inl ⟨a, b, ⟨t.tmod u, by simp [imath, h0], tmod_in a⟩, nofun, nofun⟩
  | bit b =>
    obtain ⟨it, iu⟩ := bit_covered_in (hc R e).2 ht hu
    refine Or.inl ⟨it, iu, ?_, nofun, nofun⟩
    obtain ⟨w, S, h1, h2, h3, h4, h5, h6⟩ := bit_covered hT hU e (hc R e) ht hu
    refine ⟨w, logic_int h6, ?_⟩
    have hb : S.base = R := by
      unfold bitwiseTy at h2
      rw [show pp.result b.binOp T U = .ret R from e, ret_bind] at h2
      unfold bitTy at h2
      dsimp only at h2
      rcases hx : Out.static (roundOut R.toUnsigned (b.pick (conv R.toUnsigned T.hi) (conv R.toUnsigned U.hi))) with m | x | x <;>
        rw [hx] at h2
      · rw [ret_bind] at h2
        split at h2
        · cases h2; rfl
        · cases h2
      · cases h2
      · cases h2
    rw [← hb]
    exact h3.has_in h5
  | shl =>
    have e : pp.result .shl T U = .ret R := e
    have h : shl pp p T U t u = .ret v := h
    obtain ⟨hi, hc⟩ := hc
    have hR : R.Ok := by
      rcases PP.result_shift hpp (Or.inl rfl) hT hU with ⟨R', e', hR⟩ | e' <;> rw [e] at e' <;> cases e'
      exact hR
    rcases shl_policy hpp hp hT hU hi with hq | hq
    swap
    · rw [hq] at h; cases h
    rw [hq t u ht hu] at h
    unfold shl at h
    rw [e, ret_bind] at h
    have h : runOp opShl p.strictShift R T U t u = .ret v := h
    have key : R.In t ∧ R.In u ∧ 0 ≤ u ∧ R.In (t * 2 ^ u.toNat) ∧ (u = 0 ∨ 0 < t ∨ (t = 0 ∧ u < R.digits)) := by
      obtain ⟨ri, e', _⟩ := shl_res hR hT hU
      by_cases hx : staticExc opShl R T U = true
      · rw [runOp_cases (op := opShl) e', if_pos hx, checkedShl_throw (p := p.strictShift) hR hp rfl hT ht hU hu] at h
        split at h
        · exact shlIn_fits h
        · cases h
      · obtain ⟨_, t0, u0, it, iu, ix⟩ := shl_static (p := p) hR hT hU (hc R e) hx ht hu
        refine ⟨it, iu, u0, ix, ?_⟩
        have := shl_static_count hR hT hU (hc R e) hx hu
        omega
    obtain ⟨a, b, u0, c, d⟩ := key
    exact Or.inl ⟨a, b, ⟨t * 2 ^ u.toNat, by simp [imath, u0], c⟩, fun _ => d, nofun⟩
  | shr =>
    have e : pp.result .shr T U = .ret R := e
    have h : shr pp p T U t u = .ret v := h
    obtain ⟨hi, hc⟩ := hc
    have hR : R.Ok := by
      rcases PP.result_shift hpp (Or.inr rfl) hT hU with ⟨R', e', hR⟩ | e' <;> rw [e] at e' <;> cases e'
      exact hR
    rcases shr_policy hpp hp hT hU hi with hq | hq
    swap
    · rw [hq] at h; cases h
    rw [hq t u ht hu] at h
    unfold shr at h
    rw [e, ret_bind] at h
    have key : R.In t ∧ R.In u ∧ 0 ≤ u ∧ 0 ≤ t ∧ u ≤ R.digits := by
      unfold runShr at h
      rcases shr_res hR hT hU with e' | ⟨ri, e', _, _, _, h2⟩
      · rw [e'] at h; cases h
      rw [e', castItv_eq hT, castItv_eq hU] at h
      simp only [Out.ret_bind] at h
      split at h
      · rw [checkedShr_throw (p := p.strictShift) hR hp rfl hT ht hU hu] at h
        split at h
        · exact shrIn_fits h
        · cases h
      · rename_i hx
        obtain ⟨_, t0, u0, it, iu, _⟩ := shr_static hR hT hU (hc R e).1 e' hx ht hu ((hc R e).2 u hu)
        have := (h2 (by simpa using hx) (hc R e).1).2.2.2
        exact ⟨it, iu, u0, t0, by have := hu.2; omega⟩
    obtain ⟨a, b, u0, t0, d⟩ := key
    have g1 : t / 2 ^ u.toNat ≤ t := Int.ediv_le_self _ t0
    have g2 : 0 ≤ t / 2 ^ u.toNat := Int.ediv_nonneg t0 (Int.le_of_lt (two_pow_pos _))
    have a2 := a.2; have hz := R.min_nonpos
    exact Or.inl ⟨a, b, ⟨t / 2 ^ u.toNat, by simp [imath, u0, t0], ⟨by omega, by omega⟩⟩, nofun, fun _ => d⟩

/-- an operator that returns fits -/
theorem op_fits {pp : PP} (hpp : pp.Wf) {p : EP} (hp : p.ae = .throw ∨ p.ae = .trap) {o : Op2} {T U : Opd} (hT : T.Wf)
    (hU : U.Wf) (hc : OpCovered pp p T U o) {t u v : Int} (ht : T.Has t) (hu : U.Has u)
    (h : o.safeVal pp p T U t u = .ret v) {R : ITy} (e : pp.result (opName o) T U = .ret R) : TyFits R o T U t u := by
  rcases hp with hp | hp
  · exact op_fits_throw hpp hp hT hU hc ht hu h e
  · rcases op_any hpp hp o hT hU with g | g
    · rw [g] at h; cases h
    · rw [g strictException] at h
      refine op_fits_throw hpp (p := strictException) rfl hT hU ?_ ht hu h e
      cases o with
      | ar a => cases a <;> exact hc
      | bit b => exact hc
      | shl => exact ⟨Or.inl (Or.inl rfl), hc.2⟩
      | shr => exact ⟨Or.inl (Or.inl rfl), hc.2⟩

theorem pbin_fits {N : Names} (hN : Careful N) {o : Op2} {T U : PTy N} (hT : PTy.Wf T) (hU : PTy.Wf U)
    (hc : BinCovered o T U) {t u v : Int} (ht : T.opd.Has t) (hu : U.opd.Has u) (h : pBinVal o T U t u = .ret v) :
    BinFits o T U t u := by
  intro q R hq hR
  obtain ⟨hs, hc⟩ := hc
  unfold pBinVal at h
  rw [isSafe_or hs, if_pos rfl, hq] at h
  rcases common_st T.ex U.ex with ⟨e, ee⟩ | ee <;> rw [ee] at h
  · exact op_fits (hN.2 q) (hN.1 e) hT.1 hU.1 (hc q e hq ee) ht hu h hR
  · cases h

theorem eval_fits {N : Names} (hN : Careful N) {n : Nat} {Γ : Fin n → PTy N} (hΓ : GoodVars Γ) {s : Fin n → Int}
    (hs : Ranged Γ s) : ∀ (e : LExpr N n) {v : Int}, ECovered Γ e → e.eval Γ s = .ret v → EFits Γ s e
  | .var _, _, _, _ => trivial
  | .const _ _, _, _, _ => trivial
  | .lit _, _, _, _ => trivial
  | .pos a, _, h, g => eval_fits hN hΓ hs a h g
  | .cast S a, v, h, g => by
    obtain ⟨ha, hc⟩ := h
    simp only [LExpr.eval] at g
    rcases ty_st Γ a with ⟨A, ea⟩ | ea <;> rw [ea] at g
    · rcases eval_good hN hΓ hs a ha with ⟨A', x, ea', wA, vx, hx, mx⟩ | ⟨x, ex⟩ | ex
      · rw [ea] at ea'; obtain rfl := Out.ret.inj ea'
        refine ⟨eval_fits hN hΓ hs a ha vx, fun t ht => ?_⟩
        rw [mx] at ht; cases ht
        rw [ret_bind, vx, ret_bind] at g
        rcases conv_good hN wA (hc A ea) hx with ⟨_, h⟩ | ⟨e, h⟩ | h
        · exact h
        · rw [h] at g; cases g
        · rw [h] at g; cases g
      · rw [ex] at g; cases g
      · rw [ex] at g; cases g
    · cases g
  | .neg a, v, h, g => by
    obtain ⟨ha, hc⟩ := h
    simp only [LExpr.eval] at g
    rcases ty_st Γ a with ⟨A, ea⟩ | ea <;> rw [ea] at g
    · rcases eval_good hN hΓ hs a ha with ⟨A', x, ea', wA, vx, hx, mx⟩ | ⟨x, ex⟩ | ex
      · rw [ea] at ea'; obtain rfl := Out.ret.inj ea'
        refine ⟨eval_fits hN hΓ hs a ha vx, fun T t hT hk ht => ?_⟩
        rw [ea] at hT; obtain rfl := Out.ret.inj hT
        rw [mx] at ht; cases ht
        rw [ret_bind, vx, ret_bind] at g
        unfold negValOf at g
        rw [hk] at g
        exact pbin_fits hN (o := .ar .sub) (pbuiltin_wf tInt_ok) wA ⟨Or.inr (hc A ea), fun q e _ _ => trivial⟩
          (t := 0) (ITy.in_zero tInt) hx g
      · rw [ex] at g; cases g
      · rw [ex] at g; cases g
    · cases g
  | .bin o a b, v, h, g => by
    obtain ⟨ha, hb, hc⟩ := h
    simp only [LExpr.eval] at g
    rcases ty_st Γ a with ⟨A, ea⟩ | ea <;> rw [ea] at g
    · rcases ty_st Γ b with ⟨B, eb⟩ | eb <;> rw [eb] at g
      · simp only [ret_bind] at g
        rcases eval_good hN hΓ hs a ha with ⟨A', x, ea', wA, vx, hx, mx⟩ | ⟨x, ex⟩ | ex
        · rw [ea] at ea'; obtain rfl := Out.ret.inj ea'
          rw [vx] at g
          rcases eval_good hN hΓ hs b hb with ⟨B', y, eb', wB, vy, hy, my⟩ | ⟨y, ey⟩ | ey
          · rw [eb] at eb'; obtain rfl := Out.ret.inj eb'
            rw [vy] at g
            refine ⟨eval_fits hN hΓ hs a ha vx, eval_fits hN hΓ hs b hb vy, fun T U t u hT hU ht hu => ?_⟩
            rw [ea] at hT; obtain rfl := Out.ret.inj hT
            rw [eb] at hU; obtain rfl := Out.ret.inj hU
            rw [mx] at ht; cases ht
            rw [my] at hu; cases hu
            exact pbin_fits hN wA wB (hc A B ea eb) hx hy g
          · rw [ey] at g; cases g
          · rw [ey] at g; cases g
        · rw [ex] at g; cases g
        · rw [ex] at g; cases g
      · cases g
    · cases g

/-! ### comparisons -/

theorem lt_fits {p : EP} (hp : p.ae = .throw ∨ p.ae = .trap) {R : ITy} {T U : Opd} (hT : T.Wf) (hU : U.Wf) {t u : Int}
    (ht : T.Has t) (hu : U.Has u) {b : Bool} (h : runLt p R T U t u = .ret b) :
    (R.In t ∧ R.In u) ∨ Apart R T U ∨ Apart R U T := by
  rcases hp with hp | hp
  · rw [runLt_throw hp hT hU ht hu] at h
    split at h
    · cases h
    · split at h
      · rename_i g; exact Or.inr (ltDecided_iff.1 g)
      · exact Or.inl (cmpIn_ret h)
  · rw [runLt_trap hp hT hU ht hu] at h
    split at h
    · cases h
    · rename_i g
      obtain ⟨h1, h2⟩ := cmpOpen_false (by simpa using g)
      exact Or.inl ⟨in_between h1 ht, in_between h2 hu⟩

theorem eq_fits {p : EP} (hp : p.ae = .throw ∨ p.ae = .trap) {R : ITy} {T U : Opd} (hT : T.Wf) (hU : U.Wf) {t u : Int}
    (ht : T.Has t) (hu : U.Has u) {b : Bool} (h : runEq p R T U t u = .ret b) : R.In t ∧ R.In u := by
  rcases hp with hp | hp
  · rw [runEq_throw hp hT hU ht hu] at h
    split at h
    · cases h
    · exact cmpIn_ret h
  · rw [runEq_trap hp hT hU ht hu] at h
    split at h
    · cases h
    · rename_i g
      obtain ⟨h1, h2⟩ := cmpOpen_false (by simpa using g)
      exact ⟨in_between h1 ht, in_between h2 hu⟩

omit [Arch] in
theorem ret_not {x : Out Bool} {b : Bool} (h : (do let b ← x; Out.ret (!b)) = .ret b) : ∃ c, x = .ret c := by
  rcases x with v | e | f
  · exact ⟨v, rfl⟩
  · cases h
  · cases h

theorem cmp_fits {pp : PP} {p : EP} (hp : p.ae = .throw ∨ p.ae = .trap) {o : Rel} {T U : Opd} (hT : T.Wf)
    (hU : U.Wf) {t u : Int} (ht : T.Has t) (hu : U.Has u) {b : Bool} (h : compare pp p o T U t u = .ret b) {R : ITy}
    (e : cmpType pp o T U = .ret R) : CmpFits R o T U t u := by
  have sw : ((R.In u ∧ R.In t) ∨ Apart R U T ∨ Apart R T U) → ((R.In t ∧ R.In u) ∨ Apart R T U ∨ Apart R U T) :=
    fun h => h.imp And.symm Or.symm
  unfold compare at h
  unfold CmpFits
  cases o <;> dsimp only [cmpType] at e h <;> rw [e, ret_bind] at h
  · exact (lt_fits hp hT hU ht hu h).imp id fun h => ⟨nofun, nofun, h⟩
  · exact (sw (lt_fits hp hU hT hu ht h)).imp id fun h => ⟨nofun, nofun, h⟩
  · obtain ⟨c, h⟩ := ret_not h
    exact (sw (lt_fits hp hU hT hu ht h)).imp id fun h => ⟨nofun, nofun, h⟩
  · obtain ⟨c, h⟩ := ret_not h
    exact (lt_fits hp hT hU ht hu h).imp id fun h => ⟨nofun, nofun, h⟩
  · exact Or.inl (eq_fits hp hT hU ht hu h)
  · obtain ⟨c, h⟩ := ret_not h
    exact Or.inl (eq_fits hp hT hU ht hu h)

theorem truth_fits {N : Names} (hN : Careful N) {T : PTy N} (hT : PTy.Wf T) {t : Int} (ht : T.opd.Has t) {b : Bool}
    (h : toBool T.ep T.opd t = .ret b) (hs : T.isSafe = true) : t = 0 ∨ t = 1 := by
  have run : ∀ {p : EP}, (p.ae = .throw ∨ p.ae = .trap) → boolRun p t = .ret b → (t = 0 ∨ t = 1) := fun {p} hp h => by
    unfold boolRun at h
    rcases hp with hp | hp <;> rw [hp] at h <;> dsimp only at h
    · split_ifs at h <;> omega
    · cases h
  rcases hk : T.opd.kind with _ | _ | c
  · simp [PTy.isSafe, hk] at hs
  · rw [toBool_safe hT.1 hk ht] at h
    exact run (ep_careful hN (hT.2.2.1 hk).2) h
  · have e1 := hT.1.2.2.2.2.2 c hk
    have et : T.opd.lo = t := by have := ht.1; have := ht.2; omega
    rw [toBool_lit hT.1 hk, et] at h
    split at h
    · assumption
    · split at h
      · cases h
      · rename_i _ h2
        have hc : c = true := by cases c; exact absurd (Or.inr rfl) h2; rfl
        have := hT.2.2.2 c hk
        rw [hc] at this
        refine run (ep_careful hN (fun h => ?_)) h
        rw [h] at this; cases this

theorem cond_fits {N : Names} (hN : Careful N) {n : Nat} {Γ : Fin n → PTy N} (hΓ : GoodVars Γ) {s : Fin n → Int}
    (hs : Ranged Γ s) : ∀ (c : LCond N n) {b : Bool}, CCovered Γ c → c.eval Γ s = .ret b → CFits Γ s c
  | .cmp o a b, r, h, g => by
    obtain ⟨ha, hb, hc⟩ := h
    simp only [LCond.eval] at g
    rcases ty_st Γ a with ⟨A, ea⟩ | ea <;> rw [ea] at g
    · rcases ty_st Γ b with ⟨B, eb⟩ | eb <;> rw [eb] at g
      · simp only [ret_bind] at g
        rcases eval_good hN hΓ hs a ha with ⟨A', x, ea', wA, vx, hx, mx⟩ | ⟨x, ex⟩ | ex
        · rw [ea] at ea'; obtain rfl := Out.ret.inj ea'
          rw [vx] at g
          rcases eval_good hN hΓ hs b hb with ⟨B', y, eb', wB, vy, hy, my⟩ | ⟨y, ey⟩ | ey
          · rw [eb] at eb'; obtain rfl := Out.ret.inj eb'
            rw [vy] at g
            refine ⟨eval_fits hN hΓ hs a ha vx, eval_fits hN hΓ hs b hb vy, fun T U t u q R hT hU ht hu hq hR => ?_⟩
            rw [ea] at hT; obtain rfl := Out.ret.inj hT
            rw [eb] at hU; obtain rfl := Out.ret.inj hU
            rw [mx] at ht; cases ht
            rw [my] at hu; cases hu
            simp only [ret_bind] at g
            rcases cmp_cases (hc A B ea eb) with hs | ⟨hs, _, _⟩
            case inr => exact absurd hq (common_plain wA wB hs q)
            unfold pCompare at g
            rw [isSafe_or hs, if_pos rfl, hq] at g
            rcases common_st A.ex B.ex with ⟨e, ee⟩ | ee <;> rw [ee] at g
            · exact cmp_fits (hN.1 e) wA.1 wB.1 hx hy g hR
            · cases g
          · rw [ey] at g; cases g
          · rw [ey] at g; cases g
        · rw [ex] at g; cases g
        · rw [ex] at g; cases g
      · cases g
    · cases g
  | .truth a, r, h, g => by
    simp only [LCond.eval] at g
    rcases eval_good hN hΓ hs a h with ⟨A, x, ea, wA, vx, hx, mx⟩ | ⟨x, ex⟩ | ex
    · rw [ea, vx] at g
      refine ⟨eval_fits hN hΓ hs a h vx, fun T t hT ht hsafe => ?_⟩
      rw [ea] at hT; obtain rfl := Out.ret.inj hT
      rw [mx] at ht; cases ht
      exact truth_fits hN wA hx g hsafe
    · rcases ty_st Γ a with ⟨A, ea⟩ | ea <;> rw [ea] at g
      · rw [ex] at g; cases g
      · cases g
    · rcases ty_st Γ a with ⟨A, ea⟩ | ea <;> rw [ea] at g
      · rw [ex] at g; cases g
      · cases g
  | .not a, r, h, g => by
    simp only [LCond.eval] at g
    obtain ⟨c, g⟩ := ret_not g
    exact cond_fits hN hΓ hs a h g
  | .and a b, r, h, g => by
    simp only [LCond.eval] at g
    rcases cond_good hN hΓ hs a h.1 with ⟨x, h1, h2⟩ | ⟨e, h1⟩ | h1 <;> rw [h1] at g
    · refine ⟨cond_fits hN hΓ hs a h.1 h1, fun h3 => ?_⟩
      rw [h2] at h3; cases h3
      exact cond_fits hN hΓ hs b h.2 g
    · cases g
    · cases g
  | .or a b, r, h, g => by
    simp only [LCond.eval] at g
    rcases cond_good hN hΓ hs a h.1 with ⟨x, h1, h2⟩ | ⟨e, h1⟩ | h1 <;> rw [h1] at g
    · refine ⟨cond_fits hN hΓ hs a h.1 h1, fun h3 => ?_⟩
      rw [h2] at h3; cases h3
      exact cond_fits hN hΓ hs b h.2 g
    · cases g
    · cases g

theorem assign_fits {N : Names} (hN : Careful N) {n : Nat} {Γ : Fin n → PTy N} (hΓ : GoodVars Γ) {s : Fin n → Int}
    (hs : Ranged Γ s) {i : Fin n} {e : LExpr N n} (he : ECovered Γ e) (hc : ∀ T, e.ty Γ = .ret T → ConvCovered (Γ i) T)
    {r : Int} (g : assignVal Γ s i e = .ret r) : EFits Γ s e ∧ ∀ v, ival s e = some v → (Γ i).opd.Has v := by
  unfold assignVal at g
  rcases ty_st Γ e with ⟨A, ea⟩ | ea <;> rw [ea] at g
  · rcases eval_good hN hΓ hs e he with ⟨A', x, ea', wA, vx, hx, mx⟩ | ⟨x, ex⟩ | ex
    · rw [ea] at ea'; obtain rfl := Out.ret.inj ea'
      refine ⟨eval_fits hN hΓ hs e he vx, fun v hv => ?_⟩
      rw [mx] at hv; cases hv
      rw [ret_bind, vx, ret_bind] at g
      rcases conv_good hN wA (hc A ea) hx with ⟨_, h⟩ | ⟨e, h⟩ | h
      · exact h
      · rw [h] at g; cases g
      · rw [h] at g; cases g
    · rw [ex] at g; cases g
    · rw [ex] at g; cases g
  · cases g

theorem opAssign_fits {N : Names} (hN : Careful N) {n : Nat} {Γ : Fin n → PTy N} (hΓ : GoodVars Γ) {s : Fin n → Int}
    (hs : Ranged Γ s) {o : Op2} {i : Fin n} {e : LExpr N n} (hc : AssignCovered Γ o i e) {r : Int}
    (g : opAssignVal Γ s o i e = .ret r) :
    EFits Γ s e ∧ ∀ U u, e.ty Γ = .ret U → ival s e = some u → BinFits o (Γ i) U (s i) u ∧
        ∀ v, imath o (s i) u = some v → (Γ i).opd.Has v := by
  obtain ⟨he, hc⟩ := hc
  unfold opAssignVal at g
  rcases ty_st Γ e with ⟨A, ea⟩ | ea <;> rw [ea] at g
  · rcases eval_good hN hΓ hs e he with ⟨A', x, ea', wA, vx, hx, mx⟩ | ⟨x, ex⟩ | ex
    · rw [ea] at ea'; obtain rfl := Out.ret.inj ea'
      refine ⟨eval_fits hN hΓ hs e he vx, fun U u hU hu => ?_⟩
      rw [ea] at hU; obtain rfl := Out.ret.inj hU
      rw [mx] at hu; cases hu
      rw [ret_bind, vx, ret_bind] at g
      rcases pBinTy_st o (Γ i) A with ⟨S, es⟩ | es <;> rw [es] at g
      · rw [ret_bind] at g
        rcases pbin_good hN (hΓ i).1 wA (hc A ea) (hs i) hx with ⟨S', v, es', wS, hv', hS, hm⟩ | ⟨x, ex⟩ | ex
        · rw [es] at es'; obtain rfl := Out.ret.inj es'
          refine ⟨pbin_fits hN (hΓ i).1 wA (hc A ea) (hs i) hx hv', fun w hw => ?_⟩
          rw [hm] at hw; cases hw
          rw [hv', ret_bind] at g
          rcases conv_good hN wS ⟨(hΓ i).1, (hΓ i).2, Or.inr (Or.inl (pBinTy_safe (hc A ea).1 es))⟩ hS with ⟨_, h⟩ | ⟨e, h⟩ | h
          · exact h
          · rw [h] at g; cases g
          · rw [h] at g; cases g
        · rw [ex] at g; cases g
        · rw [ex] at g; cases g
      · cases g
    · rw [ex] at g; cases g
    · rw [ex] at g; cases g
  · cases g

end
end Verif
