import Verif.QuietSpec
import Verif.Proofs.Lang

/-!
Helper lemmas for C66: operations that fit their types do not throw.
-/

namespace Verif
open Spec Lang Props

section
variable [Arch]

/-- no exception -/
def Quiet {α : Type} (x : Out α) : Prop := ∀ e, x ≠ .thrown e

omit [Arch] in
theorem quiet_ret {α : Type} {x : Out α} {v : α} (h : x = .ret v) : Quiet x := by
  intro e g; rw [h] at g; cases g

omit [Arch] in
theorem quiet_ill {α : Type} {x : Out α} {k : Fault} (h : x = .fault k) : Quiet x := by
  intro e g; rw [h] at g; cases g

omit [Arch] in
theorem in_of_lg {R B : ITy} (hs : B.signed = R.signed) (hl : R.lg ≤ B.lg) {x : Int} (h : R.In x) : B.In x := by
  have hd : R.digits ≤ B.digits := by
    unfold ITy.digits ITy.bits
    rw [hs]
    have : 2 ^ R.lg ≤ 2 ^ B.lg := Nat.pow_le_pow_right (by decide) hl
    split <;> omega
  have hp := two_pow_le hd
  have e1 := ITy.min_eq R; have e2 := ITy.min_eq B
  rw [hs] at e2
  have h1 := h.1; have h2 := h.2
  unfold ITy.max at h2 e1 e2
  refine ⟨?_, by unfold ITy.max; omega⟩
  cases hr : R.signed <;> rw [hr] at e1 e2 <;> simp at e1 e2 <;> omega

/-! ### products that are known to be zero -/

omit [Arch] in
theorem castTo_sign {R : ITy} {x : Int} (h : R.signed = true ∨ 0 ≤ x) :
    (castTo R x = .ok x ∧ R.In x) ∨ (castTo R x = .err .negative_overflow_error ∧ x < R.min) ∨
    (castTo R x = .err .positive_overflow_error ∧ R.max < x) := by
  unfold castTo exactOr
  rw [if_neg (by rintro ⟨h1, h2⟩; rcases h with h | h; rw [h] at h1; cases h1; omega)]
  have := R.min_le_max
  by_cases h1 : R.max < x
  · rw [if_pos h1]; exact Or.inr (Or.inr ⟨rfl, h1⟩)
  · by_cases h2 : x < R.min
    · rw [if_neg h1, if_pos h2]; exact Or.inr (Or.inl ⟨rfl, h2⟩)
    · rw [if_neg h1, if_neg h2]; exact Or.inl ⟨rfl, by omega, by omega⟩

theorem crMul_zero {R : ITy} (hR : R.Ok) {x : Int} (h : R.signed = true ∨ 0 ≤ x) :
    crMul R (castTo R 0) (castTo R x) = .ret (.ok 0) ∧ crMul R (castTo R x) (castTo R 0) = .ret (.ok 0) := by
  have e0 : castTo R 0 = .ok 0 := castTo_of_in R.in_zero
  have z : exactOr R.min R.max 0 = .ok 0 := exactOr_of_in R.in_zero.1 R.in_zero.2
  rw [e0]
  rcases castTo_sign h with ⟨e, i⟩ | ⟨e, _⟩ | ⟨e, _⟩ <;> rw [e]
  · rw [crMul_ok hR R.in_zero i, crMul_ok hR i R.in_zero, Int.zero_mul, Int.mul_zero, z]
    exact ⟨rfl, rfl⟩
  · unfold crMul; rw [prodFlag_zero]; exact ⟨rfl, rfl⟩
  · unfold crMul; rw [prodFlag_zero]; exact ⟨rfl, rfl⟩

theorem mul_zero_static {R : ITy} (hR : R.Ok) {T U : Opd} (hT : T.Wf) (hU : U.Wf) (h : ZeroProduct R T U) :
    staticExc opMul R T U = false := by
  have hw := hT.2.2.2.1; have hw' := hU.2.2.2.1
  have key : ∀ a b, (a = T.lo ∨ a = T.hi) → (b = U.lo ∨ b = U.hi) →
      crMul R (castTo R a) (castTo R b) = .ret (.ok 0) := by
    intro a b ha hb
    rcases h with ⟨h1, h2, h3⟩ | ⟨h1, h2, h3⟩
    · obtain rfl : a = 0 := by omega
      exact (crMul_zero hR (by rcases h3 with h3 | h3; exact Or.inl h3; right; omega)).1
    · obtain rfl : b = 0 := by omega
      exact (crMul_zero hR (by rcases h3 with h3 | h3; exact Or.inl h3; right; omega)).2
  have hp : ∀ c ∈ [CR.ok 0, .ok 0, .ok 0, .ok 0], Proper R c := by
    intro c hc; simp at hc; subst hc; exact R.in_zero
  obtain ⟨m, M, e, hm, hM, _⟩ := minmax_cr (.ok 0) [.ok 0, .ok 0, .ok 0] hp
  simp only [List.mem_cons, List.not_mem_nil, or_false, or_self] at hm hM
  subst hm hM
  have e' : itvMul R ⟨castTo R T.lo, castTo R T.hi⟩ ⟨castTo R U.lo, castTo R U.hi⟩ = .ret ⟨.ok 0, .ok 0⟩ := by
    simp only [itvMul, corners, minmax4, key _ _ (Or.inl rfl) (Or.inl rfl), key _ _ (Or.inl rfl) (Or.inr rfl),
      key _ _ (Or.inr rfl) (Or.inl rfl), key _ _ (Or.inr rfl) (Or.inr rfl), e, Out.ret_bind]
  unfold staticExc
  rw [show resItv opMul.itv R T U = .ret ⟨.ok 0, .ok 0⟩ from resItv_of hT hU e']
  exact excPossible_values R.in_zero R.in_zero

/-- a product without possible exception: it fits or is known to be zero -/
theorem mul_static_fits {R : ITy} (hR : R.Ok) {T U : Opd} (hT : T.Wf) (hU : U.Wf) (h : staticExc opMul R T U = false)
    {t u : Int} (ht : T.Has t) (hu : U.Has u) : (R.In t ∧ R.In u ∧ R.In (t * u)) ∨ ZeroProduct R T U := by
  have key : ∀ {a b : Int}, a = T.lo → b = U.lo → R.signed = true ∨ (0 ≤ a ∧ 0 ≤ b) := by
    intro a b ha hb
    by_contra hn
    obtain ⟨c1, e1, p1, g1, _⟩ := crMul_total hR (castTo_proper (R := R) (x := T.lo)) (castTo_proper (x := U.lo))
    obtain ⟨c2, e2, p2, _⟩ := crMul_total hR (castTo_proper (R := R) (x := T.lo)) (castTo_proper (x := U.hi))
    obtain ⟨c3, e3, p3, _⟩ := crMul_total hR (castTo_proper (R := R) (x := T.hi)) (castTo_proper (x := U.lo))
    obtain ⟨c4, e4, p4, _⟩ := crMul_total hR (castTo_proper (R := R) (x := T.hi)) (castTo_proper (x := U.hi))
    obtain ⟨ri, e, q1, q2, hh⟩ := corners_spec (R := R) (op := crMul R) (t := ⟨castTo R T.lo, castTo R T.hi⟩)
      (u := ⟨castTo R U.lo, castTo R U.hi⟩) e1 e2 e3 e4 p1 p2 p3 p4
    unfold staticExc at h
    rw [show resItv opMul.itv R T U = .ret ri from resItv_of hT hU e] at h
    obtain ⟨⟨v, hv, _⟩, _⟩ := excPossible_false h q1 q2
    have vc : Vague c1 := by
      apply g1
      have hs : R.signed = false := by cases hs : R.signed; rfl; exact absurd (Or.inl hs) hn
      have hd : ∀ {x : Int}, x < 0 → Vague (castTo R x) := by
        intro x hx; unfold castTo; rw [if_pos ⟨hs, hx⟩]; exact ⟨_, rfl, by decide, by decide⟩
      by_cases h0 : T.lo < 0
      · exact Or.inl (hd h0)
      · exact Or.inr (hd (by by_contra h1; exact hn (Or.inr ⟨by omega, by omega⟩)))
    rcases hh with ⟨_, vl, _⟩ | ⟨nv, _⟩
    · rw [hv] at vl; exact not_vague_ok _ vl
    · exact nv vc
  rcases mul_static hR hT hU h ht hu with g | ⟨g1, g2⟩ | ⟨g1, g2⟩
  · exact Or.inl g
  · exact Or.inr (Or.inl ⟨g1, g2, (key rfl rfl).imp id And.right⟩)
  · exact Or.inr (Or.inr ⟨g1, g2, (key rfl rfl).imp id And.left⟩)

/-! ### orders that are known from the types -/

theorem crLt_castTo {R : ITy} {x y : Int} :
    (crLt R (castTo R x) (castTo R y)).toBool = true ↔ x < y ∧ x ≤ R.max ∧ R.min ≤ y ∧ (R.signed = false → 0 ≤ x) := by
  have hz := R.min_nonpos; have hm := R.max_ge
  constructor
  · intro h
    have hlt := crLt_tt (castTo_describes x) (castTo_describes y) h
    have nx : R.signed = false → 0 ≤ x := by
      intro hs
      by_contra h0
      have e : castTo R x = .err .domain_error := by unfold castTo; rw [if_pos ⟨hs, by omega⟩]
      rw [e] at h
      revert h
      rcases hc : castTo R y with v | e
      · exact fun h => nomatch h
      · cases e <;> exact fun h => nomatch h
    have sx : R.signed = true ∨ 0 ≤ x := by
      cases hs : R.signed
      · exact Or.inr (nx hs)
      · exact Or.inl rfl
    have sy : R.signed = true ∨ 0 ≤ y := sx.imp id (by omega)
    refine ⟨hlt, ?_, ?_, nx⟩
    · rcases castTo_sign sx with ⟨e, i⟩ | ⟨e, i⟩ | ⟨e, i⟩
      · exact i.2
      · omega
      · rcases castTo_sign sy with ⟨f, j⟩ | ⟨f, j⟩ | ⟨f, j⟩
        · have := j.2; omega
        · omega
        · rw [e, f] at h; exact nomatch h
    · rcases castTo_sign sy with ⟨e, i⟩ | ⟨e, i⟩ | ⟨e, i⟩
      · exact i.1
      · rcases castTo_sign sx with ⟨f, j⟩ | ⟨f, j⟩ | ⟨f, j⟩
        · have := j.1; omega
        · rw [e, f] at h; exact nomatch h
        · omega
      · omega
  · rintro ⟨h1, h2, h3, h4⟩
    have sx : R.signed = true ∨ 0 ≤ x := by
      cases hs : R.signed
      · exact Or.inr (h4 hs)
      · exact Or.inl rfl
    have sy : R.signed = true ∨ 0 ≤ y := sx.imp id (by omega)
    rcases castTo_sign sx with ⟨e, i⟩ | ⟨e, i⟩ | ⟨e, i⟩ <;> rcases castTo_sign sy with ⟨f, j⟩ | ⟨f, j⟩ | ⟨f, j⟩ <;> rw [e, f]
    · rw [crLt_ok i j, decide_eq_true h1]; rfl
    all_goals first | omega | rfl

theorem ltDecided_iff {R : ITy} {T U : Opd} : ltDecided R T U = true ↔ Apart R T U ∨ Apart R U T := by
  have e1 : ((⟨castTo R T.lo, castTo R T.hi⟩ : Itv CR).lt (crCmp R) ⟨castTo R U.lo, castTo R U.hi⟩).toBool = true ↔ Apart R T U := by
    rw [show Apart R T U ↔ _ from crLt_castTo.symm]
    unfold Itv.lt
    constructor
    · intro h
      split_ifs at h with h1 h2
      · exact h1
      · exact absurd h (by decide)
      · exact absurd h (by decide)
    · intro h
      rw [if_pos (show ((crCmp R).lt (castTo R T.hi) (castTo R U.lo)).toBool = true from h)]; rfl
  have e2 : ((⟨castTo R T.lo, castTo R T.hi⟩ : Itv CR).gt (crCmp R) ⟨castTo R U.lo, castTo R U.hi⟩).toBool = true ↔ Apart R U T := by
    rw [show Apart R U T ↔ _ from crLt_castTo.symm]
    unfold Itv.gt
    constructor
    · intro h
      split_ifs at h with h1 h2
      · exact h1
      · exact absurd h (by decide)
      · exact absurd h (by decide)
    · intro h
      rw [if_pos (show ((crCmp R).gt (castTo R T.lo) (castTo R U.hi)).toBool = true from h)]; rfl
  unfold ltDecided
  rw [Bool.or_eq_true, e1, e2]

theorem op_quiet {pp : PP} (hpp : pp.Wf) {p : EP} (hp : p.ae = .throw ∨ p.ae = .trap) {o : Op2} {T U : Opd} (hT : T.Wf)
    (hU : U.Wf) (hc : OpCovered pp p T U o) {t u : Int} (ht : T.Has t) (hu : U.Has u)
    (hf : ∀ R, pp.result (opName o) T U = .ret R → TyFits R o T U t u) : Quiet (o.safeVal pp p T U t u) := by
  rcases hp with hp | hp
  swap
  · rcases op_trap hpp hp hT hU hc with h | ⟨S, _, _, _, h⟩
    · exact quiet_ill (h t u ht hu)
    · obtain ⟨v, g, _⟩ := h t u ht hu
      exact quiet_ret g
  cases o with
  | ar a =>
    show Quiet (arith pp p a T U t u)
    unfold arith
    rcases PP.result_total hpp (op := a.binOp) (by cases a <;> decide) hT hU with ⟨R, e, hR⟩ | e
    · rw [e, ret_bind]
      rcases hf R e with ⟨it, iu, ⟨v, hv, iv⟩, _, _⟩ | ⟨ha, hz⟩
      swap
      · cases ha
        show Quiet (runOp opMul p R T U t u)
        rw [runMul_throw hp hR hT hU ht hu, mul_zero_static hR hT hU hz]
        exact quiet_ret rfl
      cases a with
      | add => cases hv; exact quiet_ret (runAdd_in hp hT hU ht hu it iu iv)
      | sub => cases hv; exact quiet_ret (runSub_in hp hT hU ht hu it iu iv)
      | mul => cases hv; exact quiet_ret (runMul_in hp hR hT hU ht hu it iu iv)
      | div =>
        have h0 : u ≠ 0 := fun h => by simp [imath, h] at hv
        simp only [imath, if_neg h0] at hv
        cases hv
        obtain ⟨_, f2, hw⟩ := hc R e
        obtain ⟨B, eB, hs, hl, h⟩ := runDiv_throw hp hR hT hU (fun _ => f2)
        have h := h ht hu (Or.inr iv)
        show Quiet (runDiv p R T U t u)
        rw [h]
        split
        · exact quiet_ill rfl
        · have := (in_of_lg hs hl iv).2
          refine quiet_ret (v := t.tdiv u) ?_
          unfold quotIn
          rw [castTo_of_in (in_of_lg hs hl it), castTo_of_in (in_of_lg hs hl iu)]
          dsimp only
          rw [if_neg h0, if_neg (by omega)]
      | mod =>
        have h0 : u ≠ 0 := fun h => by simp [imath, h] at hv
        simp only [imath, if_neg h0] at hv
        cases hv
        obtain ⟨hw, hm⟩ := hc.1 R e
        obtain ⟨B, eB, hs, hl, h⟩ := runMod_throw hp hR hT hU
          (fun _ => ⟨fits_of_digits hT hw.1, fits_of_digits hU hw.2⟩)
        rw [tempBase_self hR hw.1 hw.2] at eB
        obtain rfl := Out.ret.inj eB
        have h := h ht hu (fun g => hm g.1 (g.2.1 ▸ ht)) (fun _ g => hm g.1 (g.2.1 ▸ ht)) (fun g _ => tmod_in g)
        show Quiet (runMod p R T U t u)
        rw [h]
        split
        · exact quiet_ill rfl
        · refine quiet_ret (v := t.tmod u) ?_
          unfold remIn
          rw [castTo_of_in it, castTo_of_in iu]
          dsimp only
          rw [if_neg h0]
    · rw [e]; exact quiet_ill rfl
  | bit b =>
    show Quiet (bitwise pp b T U t u)
    rcases result_st pp b.binOp T U with ⟨R, e⟩ | e
    · obtain ⟨v, S, h1, _⟩ := bit_covered hT hU e (hc R e) ht hu
      exact quiet_ret h1
    · unfold bitwise; rw [e]; exact quiet_ill rfl
  | shl =>
    obtain ⟨hi, hc⟩ := hc
    show Quiet (shl pp p T U t u)
    rcases shl_policy hpp hp hT hU hi with hq | hq
    swap
    · exact quiet_ill (hq t u)
    rw [hq t u ht hu]
    rcases result_st pp .shl T U with ⟨R, e⟩ | e
    · obtain ⟨it, iu, ⟨v, hv, iv⟩, hz, _⟩ := (hf R e).resolve_right (fun h => by cases h.1)
      have h0 : 0 ≤ u := by by_contra h; simp [imath, h] at hv
      simp only [imath, if_pos h0] at hv
      cases hv
      exact quiet_ret (C26_shl_returns pp hpp p.strictShift hp rfl T U hT hU R e (hc R e) t u ht hu it iu (hz rfl) h0 iv)
    · unfold shl; rw [e]; exact quiet_ill rfl
  | shr =>
    obtain ⟨hi, hc⟩ := hc
    show Quiet (shr pp p T U t u)
    rcases shr_policy hpp hp hT hU hi with hq | hq
    swap
    · exact quiet_ill (hq t u)
    rw [hq t u ht hu]
    rcases result_st pp .shr T U with ⟨R, e⟩ | e
    · obtain ⟨it, iu, ⟨v, hv, iv⟩, _, hw⟩ := (hf R e).resolve_right (fun h => by cases h.1)
      have h0 : 0 ≤ u ∧ 0 ≤ t := by by_contra h; simp [imath, h] at hv
      rcases C26_shr_returns pp hpp p.strictShift hp rfl T U hT hU R e (hc R e).1 t u ht hu it h0.2 h0.1 (hw rfl)
        ((hc R e).2 u hu) with h | h
      · exact quiet_ret h
      · exact quiet_ill h
    · unfold shr; rw [e]; exact quiet_ill rfl

theorem pbin_quiet {N : Names} (hN : Careful N) {o : Op2} {T U : PTy N} (hT : PTy.Wf T) (hU : PTy.Wf U)
    (hc : BinCovered o T U) {t u : Int} (ht : T.opd.Has t) (hu : U.opd.Has u) (hf : BinFits o T U t u) :
    Quiet (pBinVal o T U t u) := by
  obtain ⟨hs, hc⟩ := hc
  unfold pBinVal
  rw [isSafe_or hs, if_pos rfl]
  rcases common_st T.pr U.pr with ⟨q, eq⟩ | eq
  · rcases common_st T.ex U.ex with ⟨e, ee⟩ | ee
    · rw [eq, ee]
      simp only [ret_bind]
      exact op_quiet (hN.2 q) (hN.1 e) hT.1 hU.1 (hc q e eq ee) ht hu (fun R h => hf q R eq h)
    · rw [eq, ee]; exact quiet_ill rfl
  · rw [eq]; exact quiet_ill rfl

theorem conv_quiet {N : Names} (hN : Careful N) {S T : PTy N} (hT : PTy.Wf T) (hc : ConvCovered S T) {t : Int}
    (ht : T.opd.Has t) (hf : S.opd.Has t) : Quiet (convTo S T t) := by
  obtain ⟨hS, hl, hc⟩ := hc
  have hin := hS.1.has_in hf
  unfold convTo
  rcases hl with hk | hk
  · rw [hk]
    dsimp only
    rcases hkT : T.opd.kind with _ | _ | b
    · exact quiet_ret rfl
    · dsimp only
      rcases ep_careful hN (hT.2.2.1 hkT).2 with hp | hp
      · exact quiet_ret ((C22_toBuiltin T.ep hp S.opd.base T.opd hT.1 t ht).1 hin)
      · rcases toBuiltin_trap hp S.opd.base hT.1 with h | h
        · exact quiet_ill (h t ht)
        · exact quiet_ret (h t ht).1
    · dsimp only
      have e1 := hT.1.2.2.2.2.2 b hkT
      have et : t = T.opd.lo := by have := ht.1; have := ht.2; omega
      have eT : T.opd = ⟨T.opd.base, T.opd.lo, T.opd.lo, .lit b⟩ := by
        rcases h : T.opd with ⟨B, l, u, k⟩
        rw [h] at e1 hkT; dsimp only at e1 hkT ⊢; subst e1 hkT; rfl
      rw [eT]
      rw [et] at hin
      exact quiet_ret ((C40_convert T.ep S.opd.base T.opd.base hT.1.1 T.opd.lo b hT.1.2.1).1 hin)
  · rw [hk]
    dsimp only
    split
    · exact quiet_ret rfl
    · rw [validate_eq hS.1.2.1 hS.1.2.2.1 hT.1 ht]
      split
      · exact quiet_ill rfl
      · split
        · exact quiet_ret rfl
        · rcases ep_careful hN (hS.2.2.1 hk).2 with hp | hp <;> rw [hp] <;> dsimp only
          · split
            · exact quiet_ret rfl
            · rename_i h; exact absurd hf h
          · exact quiet_ill rfl

theorem eval_quiet {N : Names} (hN : Careful N) {n : Nat} {Γ : Fin n → PTy N} (hΓ : GoodVars Γ) {s : Fin n → Int}
    (hs : Ranged Γ s) : ∀ e : LExpr N n, ECovered Γ e → EFits Γ s e → Quiet (e.eval Γ s)
  | .var _, _, _ => quiet_ret rfl
  | .const _ _, _, _ => quiet_ret rfl
  | .lit _, _, _ => quiet_ret rfl
  | .pos a, h, hf => eval_quiet hN hΓ hs a h hf
  | .cast S a, h, hf => by
    obtain ⟨ha, hc⟩ := h
    have qa := eval_quiet hN hΓ hs a ha hf.1
    simp only [LExpr.eval]
    rcases ty_st Γ a with ⟨A, ea⟩ | ea
    · rw [ea, ret_bind]
      rcases eval_good hN hΓ hs a ha with ⟨A', x, ea', wA, vx, hx, mx⟩ | ⟨x, ex⟩ | ex
      · rw [ea] at ea'; obtain rfl := Out.ret.inj ea'
        rw [vx, ret_bind]
        exact conv_quiet hN wA (hc A ea) hx (hf.2 x mx)
      · exact absurd ex (qa x)
      · rw [ex]; exact quiet_ill rfl
    · rw [ea]; exact quiet_ill rfl
  | .neg a, h, hf => by
    obtain ⟨ha, hc⟩ := h
    have qa := eval_quiet hN hΓ hs a ha hf.1
    simp only [LExpr.eval]
    rcases ty_st Γ a with ⟨A, ea⟩ | ea
    · rw [ea, ret_bind]
      rcases eval_good hN hΓ hs a ha with ⟨A', x, ea', wA, vx, hx, mx⟩ | ⟨x, ex⟩ | ex
      · rw [ea] at ea'; obtain rfl := Out.ret.inj ea'
        rw [vx, ret_bind]
        have hsafe := hc A ea
        unfold negValOf
        rcases hk : A.opd.kind with _ | _ | b
        · simp [PTy.isSafe, hk] at hsafe
        · dsimp only
          exact pbin_quiet hN (o := .ar .sub) (pbuiltin_wf tInt_ok) wA ⟨Or.inr hsafe, fun q e _ _ => trivial⟩ (t := 0) (ITy.in_zero tInt) hx
            (hf.2 A x ea hk mx)
        · dsimp only
          have e1 := wA.1.2.2.2.2.2 b hk
          have eT : A.opd = ⟨A.opd.base, A.opd.lo, A.opd.lo, .lit b⟩ := by
            rcases h : A.opd with ⟨B, l, u, k⟩
            rw [h] at e1 hk; dsimp only at e1 hk ⊢; subst e1 hk; rfl
          rw [eT, C40_minus _ _ _ wA.1.2.1]
          split
          · exact quiet_ret rfl
          · exact quiet_ill rfl
      · exact absurd ex (qa x)
      · rw [ex]; exact quiet_ill rfl
    · rw [ea]; exact quiet_ill rfl
  | .bin o a b, h, hf => by
    obtain ⟨ha, hb, hc⟩ := h
    have qa := eval_quiet hN hΓ hs a ha hf.1
    have qb := eval_quiet hN hΓ hs b hb hf.2.1
    simp only [LExpr.eval]
    rcases ty_st Γ a with ⟨A, ea⟩ | ea
    · rcases ty_st Γ b with ⟨B, eb⟩ | eb
      · rw [ea, eb]
        simp only [ret_bind]
        rcases eval_good hN hΓ hs a ha with ⟨A', x, ea', wA, vx, hx, mx⟩ | ⟨x, ex⟩ | ex
        · rw [ea] at ea'; obtain rfl := Out.ret.inj ea'
          rcases eval_good hN hΓ hs b hb with ⟨B', y, eb', wB, vy, hy, my⟩ | ⟨y, ey⟩ | ey
          · rw [eb] at eb'; obtain rfl := Out.ret.inj eb'
            rw [vx, vy]
            exact pbin_quiet hN wA wB (hc A B ea eb) hx hy (hf.2.2 A B x y ea eb mx my)
          · exact absurd ey (qb y)
          · rw [vx, ey]; exact quiet_ill rfl
        · exact absurd ex (qa x)
        · rw [ex]; exact quiet_ill rfl
      · rw [ea, eb]; exact quiet_ill rfl
    · rw [ea]; exact quiet_ill rfl

theorem lt_quiet {p : EP} (hp : p.ae = .throw) {R : ITy} {T U : Opd} (hT : T.Wf) (hU : U.Wf) {t u : Int} (ht : T.Has t)
    (hu : U.Has u) (h : (R.In t ∧ R.In u) ∨ Apart R T U ∨ Apart R U T) : Quiet (runLt p R T U t u) := by
  rw [runLt_throw hp hT hU ht hu]
  split
  · exact quiet_ill rfl
  · split
    · exact quiet_ret rfl
    · rename_i h'
      rcases h with h | h
      · rw [cmpIn_of_in h.1 h.2]; exact quiet_ret rfl
      · exact absurd (ltDecided_iff.2 h) h'

theorem eq_quiet {p : EP} (hp : p.ae = .throw) {R : ITy} {T U : Opd} (hT : T.Wf) (hU : U.Wf) {t u : Int} (ht : T.Has t)
    (hu : U.Has u) (it : R.In t) (iu : R.In u) : Quiet (runEq p R T U t u) := by
  rw [runEq_throw hp hT hU ht hu, if_neg (fun h => h.2 (litsOk_value hT hU ht hu it iu)), cmpIn_of_in it iu]
  exact quiet_ret rfl

omit [Arch] in
theorem quiet_not {x : Out Bool} (h : Quiet x) : Quiet (do let b ← x; Out.ret (!b)) := by
  rcases x with v | e | f
  · exact quiet_ret rfl
  · exact absurd rfl (h e)
  · exact quiet_ill rfl

theorem cmp_quiet {pp : PP} (hpp : pp.Wf) {p : EP} (hp : p.ae = .throw ∨ p.ae = .trap) (o : Rel) {T U : Opd} (hT : T.Wf)
    (hU : U.Wf) {t u : Int} (ht : T.Has t) (hu : U.Has u)
    (hf : ∀ R, cmpType pp o T U = .ret R → CmpFits R o T U t u) :
    Quiet (compare pp p o T U t u) := by
  rcases hp with hp | hp
  swap
  · rcases C30_compare pp hpp p hp o T U hT hU with h | h
    · exact quiet_ill (h t u ht hu)
    · exact quiet_ret (h t u ht hu)
  have key : ∀ {x : Out ITy}, (∀ R, x = .ret R → CmpFits R o T U t u) → (∃ R, x = .ret R) ∨ x = .fault .illFormed →
      ∀ {g : ITy → Out Bool}, (∀ R, CmpFits R o T U t u → Quiet (g R)) → Quiet (do g (← x)) := by
    rintro x h (⟨R, rfl⟩ | rfl) g hg
    · exact hg R (h R rfl)
    · exact quiet_ill rfl
  have sw : ∀ {R}, ((R.In t ∧ R.In u) ∨ Apart R T U ∨ Apart R U T) → ((R.In u ∧ R.In t) ∨ Apart R U T ∨ Apart R T U) :=
    fun h => h.imp And.symm Or.symm
  unfold compare
  cases o <;> dsimp only
  · exact key hf (result_st pp .cmp T U) fun R h => lt_quiet hp hT hU ht hu (h.imp id (·.2.2))
  · exact key hf (result_st pp .cmp U T) fun R h => lt_quiet hp hU hT hu ht (sw (h.imp id (·.2.2)))
  · exact key hf (result_st pp .cmp U T) fun R h => quiet_not (lt_quiet hp hU hT hu ht (sw (h.imp id (·.2.2))))
  · exact key hf (result_st pp .cmp T U) fun R h => quiet_not (lt_quiet hp hT hU ht hu (h.imp id (·.2.2)))
  · exact key hf (result_st pp .cmp T U) fun R h => by
      obtain ⟨a, b⟩ := h.resolve_right (fun h => h.1 rfl)
      exact eq_quiet hp hT hU ht hu a b
  · exact key hf (result_st pp .cmp T U) fun R h => by
      obtain ⟨a, b⟩ := h.resolve_right (fun h => h.2.1 rfl)
      exact quiet_not (eq_quiet hp hT hU ht hu a b)

theorem truth_quiet {N : Names} (hN : Careful N) {T : PTy N} (hT : PTy.Wf T) {t : Int} (ht : T.opd.Has t)
    (hf : T.isSafe = true → t = 0 ∨ t = 1) : Quiet (toBool T.ep T.opd t) := by
  have run : ∀ {p : EP}, (p.ae = .throw ∨ p.ae = .trap) → (t = 0 ∨ t = 1) → Quiet (boolRun p t) := fun {p} hp h => by
    unfold boolRun
    rcases hp with hp | hp <;> rw [hp] <;> dsimp only
    · rw [if_neg (by omega), if_neg (by omega)]; exact quiet_ret rfl
    · exact quiet_ill rfl
  rcases hk : T.opd.kind with _ | _ | b
  · unfold toBool; rw [hk]; exact quiet_ret rfl
  · rw [toBool_safe hT.1 hk ht]
    exact run (ep_careful hN (hT.2.2.1 hk).2) (hf (by unfold PTy.isSafe; rw [hk]; rfl))
  · have e1 := hT.1.2.2.2.2.2 b hk
    have et : T.opd.lo = t := by have := ht.1; have := ht.2; omega
    rw [toBool_lit hT.1 hk, et, if_pos (hf (by unfold PTy.isSafe; rw [hk]; rfl))]
    exact quiet_ret rfl

theorem cond_quiet {N : Names} (hN : Careful N) {n : Nat} {Γ : Fin n → PTy N} (hΓ : GoodVars Γ) {s : Fin n → Int}
    (hs : Ranged Γ s) : ∀ c : LCond N n, CCovered Γ c → CFits Γ s c → Quiet (c.eval Γ s)
  | .cmp o a b, h, hf => by
    obtain ⟨ha, hb, hc⟩ := h
    have qa := eval_quiet hN hΓ hs a ha hf.1
    have qb := eval_quiet hN hΓ hs b hb hf.2.1
    simp only [LCond.eval]
    rcases ty_st Γ a with ⟨A, ea⟩ | ea
    · rcases ty_st Γ b with ⟨B, eb⟩ | eb
      · rw [ea, eb]
        simp only [ret_bind]
        rcases eval_good hN hΓ hs a ha with ⟨A', x, ea', wA, vx, hx, mx⟩ | ⟨x, ex⟩ | ex
        · rw [ea] at ea'; obtain rfl := Out.ret.inj ea'
          rcases eval_good hN hΓ hs b hb with ⟨B', y, eb', wB, vy, hy, my⟩ | ⟨y, ey⟩ | ey
          · rw [eb] at eb'; obtain rfl := Out.ret.inj eb'
            rw [vx, vy]
            simp only [ret_bind]
            rcases cmp_cases (hc A B ea eb) with hs | ⟨_, _, hs⟩
            case inr => exact quiet_ret (hs o x y hx hy)
            unfold pCompare
            rw [isSafe_or hs, if_pos rfl]
            rcases common_st A.pr B.pr with ⟨q, eq⟩ | eq
            · rcases common_st A.ex B.ex with ⟨e, ee⟩ | ee
              · rw [eq, ee]
                simp only [ret_bind]
                exact cmp_quiet (hN.2 q) (hN.1 e) o wA.1 wB.1 hx hy fun R h => hf.2.2 A B x y q R ea eb mx my eq h
              · rw [eq, ee]; exact quiet_ill rfl
            · rw [eq]; exact quiet_ill rfl
          · exact absurd ey (qb y)
          · rw [vx, ey]; exact quiet_ill rfl
        · exact absurd ex (qa x)
        · rw [ex]; exact quiet_ill rfl
      · rw [ea, eb]; exact quiet_ill rfl
    · rw [ea]; exact quiet_ill rfl
  | .truth a, h, hf => by
    have qa := eval_quiet hN hΓ hs a h hf.1
    simp only [LCond.eval]
    rcases eval_good hN hΓ hs a h with ⟨A, x, ea, wA, vx, hx, mx⟩ | ⟨x, ex⟩ | ex
    · rw [ea, vx]
      exact truth_quiet hN wA hx (hf.2 A x ea mx)
    · exact absurd ex (qa x)
    · rcases ty_st Γ a with ⟨A, ea⟩ | ea <;> rw [ea]
      · rw [ex]; exact quiet_ill rfl
      · exact quiet_ill rfl
  | .not a, h, hf => by
    simp only [LCond.eval]
    have qa := cond_quiet hN hΓ hs a h hf
    rcases cond_good hN hΓ hs a h with ⟨b, h1, h2⟩ | ⟨e, h⟩ | h
    · rw [h1]; exact quiet_ret rfl
    · exact absurd h (qa e)
    · rw [h]; exact quiet_ill rfl
  | .and a b, h, hf => by
    simp only [LCond.eval]
    have qa := cond_quiet hN hΓ hs a h.1 hf.1
    rcases cond_good hN hΓ hs a h.1 with ⟨x, h1, h2⟩ | ⟨e, h⟩ | h
    · rw [h1]
      cases x
      · exact quiet_ret rfl
      · exact cond_quiet hN hΓ hs b h.2 (hf.2 h2)
    · exact absurd h (qa e)
    · rw [h]; exact quiet_ill rfl
  | .or a b, h, hf => by
    simp only [LCond.eval]
    have qa := cond_quiet hN hΓ hs a h.1 hf.1
    rcases cond_good hN hΓ hs a h.1 with ⟨x, h1, h2⟩ | ⟨e, h⟩ | h
    · rw [h1]
      cases x
      · exact cond_quiet hN hΓ hs b h.2 (hf.2 h2)
      · exact quiet_ret rfl
    · exact absurd h (qa e)
    · rw [h]; exact quiet_ill rfl

theorem assign_quiet {N : Names} (hN : Careful N) {n : Nat} {Γ : Fin n → PTy N} (hΓ : GoodVars Γ) {s : Fin n → Int}
    (hs : Ranged Γ s) {i : Fin n} {e : LExpr N n} (he : ECovered Γ e) (hc : ∀ T, e.ty Γ = .ret T → ConvCovered (Γ i) T)
    (hf : EFits Γ s e) (hv : ∀ v, ival s e = some v → (Γ i).opd.Has v) : Quiet (assignVal Γ s i e) := by
  unfold assignVal
  rcases ty_st Γ e with ⟨A, ea⟩ | ea
  · rw [ea, ret_bind]
    rcases eval_good hN hΓ hs e he with ⟨A', x, ea', wA, vx, hx, mx⟩ | ⟨x, ex⟩ | ex
    · rw [ea] at ea'; obtain rfl := Out.ret.inj ea'
      rw [vx, ret_bind]
      exact conv_quiet hN wA (hc A ea) hx (hv x mx)
    · exact absurd ex (eval_quiet hN hΓ hs e he hf x)
    · rw [ex]; exact quiet_ill rfl
  · rw [ea]; exact quiet_ill rfl

theorem opAssign_quiet {N : Names} (hN : Careful N) {n : Nat} {Γ : Fin n → PTy N} (hΓ : GoodVars Γ) {s : Fin n → Int}
    (hs : Ranged Γ s) {o : Op2} {i : Fin n} {e : LExpr N n} (hc : AssignCovered Γ o i e) (hf : EFits Γ s e)
    (hv : ∀ U u, e.ty Γ = .ret U → ival s e = some u → BinFits o (Γ i) U (s i) u ∧
        ∀ v, imath o (s i) u = some v → (Γ i).opd.Has v) : Quiet (opAssignVal Γ s o i e) := by
  obtain ⟨he, hc⟩ := hc
  unfold opAssignVal
  rcases ty_st Γ e with ⟨A, ea⟩ | ea
  · rw [ea, ret_bind]
    rcases eval_good hN hΓ hs e he with ⟨A', x, ea', wA, vx, hx, mx⟩ | ⟨x, ex⟩ | ex
    · rw [ea] at ea'; obtain rfl := Out.ret.inj ea'
      rw [vx, ret_bind]
      obtain ⟨hb, hv⟩ := hv A x ea mx
      have qb := pbin_quiet hN (hΓ i).1 wA (hc A ea) (hs i) hx hb
      rcases pBinTy_st o (Γ i) A with ⟨S, es⟩ | es
      · rw [es, ret_bind]
        rcases pbin_good hN (hΓ i).1 wA (hc A ea) (hs i) hx with ⟨S', v, es', wS, hv', hS, hm⟩ | ⟨x, ex⟩ | ex
        · rw [es] at es'; obtain rfl := Out.ret.inj es'
          rw [hv', ret_bind]
          exact conv_quiet hN wS ⟨(hΓ i).1, (hΓ i).2, Or.inr (Or.inl (pBinTy_safe (hc A ea).1 es))⟩ hS (hv v hm)
        · exact absurd ex (qb x)
        · rw [ex]; exact quiet_ill rfl
      · rw [es]; exact quiet_ill rfl
    · exact absurd ex (eval_quiet hN hΓ hs e he hf x)
    · rw [ex]; exact quiet_ill rfl
  · rw [ea]; exact quiet_ill rfl

end
end Verif
