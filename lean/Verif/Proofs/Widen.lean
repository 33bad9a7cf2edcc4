import Verif.WidenSpec
import Verif.Proofs.Bare

/-!
Helper lemmas for C100: an operation that fits also fits when its operands have wider types.
-/

namespace Verif
open Spec Lang Props

section
variable [Arch]

omit [Arch] in
theorem in_wider {R R' : ITy} (h : R.signed = true) (h' : R'.signed = true) (hl : R.lg ≤ R'.lg) {x : Int} (hx : R.In x) :
    R'.In x := by
  rcases Nat.lt_or_ge R.lg R'.lg with g | g
  · exact hx.widen_signed h' g
  · have e : R = R' := by
      cases R; cases R'
      simp only [ITy.mk.injEq] at h h' g hl ⊢
      exact ⟨h.trans h'.symm, by omega⟩
    rw [← e]; exact hx

theorem uac_wide {B C : ITy} (hB : PromotedSigned B) (hC : PromotedSigned C) :
    (uac B C).signed = true ∧ (uac B C).lg = max (promote B).lg (promote C).lg := by
  unfold PromotedSigned at hB hC
  unfold uac
  dsimp only
  rw [if_pos (hB.trans hC.symm)]
  split
  · exact ⟨hC, by omega⟩
  · exact ⟨hB, by omega⟩

theorem native_signed {o : Op2} {B C B' C' : ITy} (hB : PromotedSigned B) (hC : PromotedSigned C) (hB' : PromotedSigned B')
    (hC' : PromotedSigned C') (h1 : (promote B).lg ≤ (promote B').lg) (h2 : (promote C).lg ≤ (promote C').lg) :
    (nativeResult (opName o) B C).signed = true ∧ (nativeResult (opName o) B' C').signed = true ∧
      (nativeResult (opName o) B C).lg ≤ (nativeResult (opName o) B' C').lg := by
  have a := uac_wide hB hC
  have b := uac_wide hB' hC'
  have k : (uac B C).signed = true ∧ (uac B' C').signed = true ∧ (uac B C).lg ≤ (uac B' C').lg :=
    ⟨a.1, b.1, by rw [a.2, b.2]; omega⟩
  cases o with
  | ar a => cases a <;> exact k
  | bit b => cases b <;> exact k
  | shl => exact ⟨hB, hB', h1⟩
  | shr => exact ⟨hB, hB', h1⟩

theorem promote_mono {R R' : ITy} (h : R.signed = true) (h' : R'.signed = true) (hl : R.lg ≤ R'.lg) :
    PromotedSigned R ∧ PromotedSigned R' ∧ (promote R).lg ≤ (promote R').lg := by
  unfold PromotedSigned promote
  refine ⟨by split <;> simp [h], by split <;> simp [h'], ?_⟩
  split <;> split <;> (try simp only [tInt]) <;> omega

/-- the part of `Widens` that expressions keep -/
structure Wider {N : Names} (T T' : PTy N) : Prop where
  pr : T'.pr = T.pr
  ex : T'.ex = T.ex
  kind : T'.opd.kind = T.opd.kind
  s : PromotedSigned T.opd.base
  s' : PromotedSigned T'.opd.base
  w : (promote T.opd.base).lg ≤ (promote T'.opd.base).lg

theorem Spec.Widens.wider {N : Names} {T T' : PTy N} (h : Widens T T') : Wider T T' :=
  ⟨h.promotion, h.exception, h.kind, h.signed, h.signed', h.width⟩

theorem Wider.rfl {N : Names} {T : PTy N} (h : PromotedSigned T.opd.base) : Wider T T := ⟨Eq.refl _, Eq.refl _, Eq.refl _, h, h, le_refl _⟩

theorem tInt_promoted : PromotedSigned tInt := by
  unfold PromotedSigned promote; split <;> rfl

theorem Wider.isSafe {N : Names} {T T' : PTy N} (h : Wider T T') : T'.isSafe = T.isSafe := by
  simp only [PTy.isSafe, h.kind]

theorem litMinus_base {T L : Opd} (hl : litMinus T = .ret L) : L.base = T.base ∧ L.kind = T.kind := by
  unfold litMinus at hl
  rcases h1 : minus T.base make T.lo with c | x | x <;> rw [h1] at hl
  · rw [ret_bind] at hl
    split at hl
    · cases hl
    · rcases h2 : cNeg T.base T.lo with v | x | x <;> rw [h2] at hl
      · rw [ret_bind] at hl
        split at hl
        · cases hl; exact ⟨rfl, rfl⟩
        · cases hl
      · cases hl
      · cases hl
  · cases hl
  · cases hl

theorem pBinTy_base {N : Names} (hn : Native N) {o : Op2} {T U S : PTy N} (h : pBinTy o T U = .ret S) :
    S.opd.base = nativeResult (opName o) T.opd.base U.opd.base :=
  have := pBinTy_bare hn h (B := T.opd.base) (C := U.opd.base) rfl rfl
  have e : PTy.builtin (o.cTy T.opd.base U.opd.base) = (PTy.builtin S.opd.base : PTy N) := Out.ret.inj this
  (congrArg (fun x : PTy N => x.opd.base) e).symm.trans (cTy_congr rfl rfl)

theorem safeTy_kind {o : Op2} {T U S : Opd} (h : o.safeTy .native T U = .ret S) : S.kind = .safe := by
  have res : ∀ {f : ITy → Itv CR → Itv CR → Out (Itv CR)} {R : ITy}, resTy f R T U = .ret S → S.kind = .safe := by
    intro f R h
    unfold resTy at h
    rcases hx : resItv f R T U with ri | x | x <;> rw [hx] at h <;> cases h
    rfl
  cases o with
  | ar a => exact res h
  | bit b =>
    have h : bitTy _ _ T U = .ret S := h
    unfold bitTy at h
    dsimp only at h
    rcases hx : Out.static (roundOut (nativeResult b.binOp T.base U.base).toUnsigned
      (b.pick (conv (nativeResult b.binOp T.base U.base).toUnsigned T.hi)
        (conv (nativeResult b.binOp T.base U.base).toUnsigned U.hi))) with m | x | x <;> rw [hx] at h
    · rw [ret_bind] at h
      split at h
      · cases h; rfl
      · cases h
    · cases h
    · cases h
  | shl => exact res h
  | shr => exact res h

theorem pBinTy_wider {N : Names} (hn : Native N) {o : Op2} {T U S T' U' S' : PTy N} (hT : Wider T T') (hU : Wider U U')
    (h : pBinTy o T U = .ret S) (h' : pBinTy o T' U' = .ret S') : Wider S S' := by
  obtain ⟨a, b, c⟩ := native_signed (o := o) hT.s hU.s hT.s' hU.s' hT.w hU.w
  have e := pBinTy_base hn h
  have e' := pBinTy_base hn h'
  obtain ⟨p1, p2, p3⟩ := promote_mono a b c
  rw [← e] at p1 p3
  rw [← e'] at p2 p3
  have k : S'.pr = S.pr ∧ S'.ex = S.ex ∧ S'.opd.kind = S.opd.kind := by
    unfold pBinTy at h h'
    rw [hT.isSafe, hU.isSafe, hT.pr, hU.pr, hT.ex, hU.ex] at h'
    split at h
    · rename_i hs
      rw [if_pos hs] at h'
      rcases common_st T.pr U.pr with ⟨q, eq⟩ | eq <;> rw [eq] at h h'
      · rcases common_st T.ex U.ex with ⟨x, ex⟩ | ex <;> rw [ex] at h h'
        · simp only [ret_bind] at h h'
          rw [hn q] at h h'
          rcases hS : o.safeTy .native T.opd U.opd with S0 | y | y <;> rw [hS] at h
          · rcases hS' : o.safeTy .native T'.opd U'.opd with S1 | y | y <;> rw [hS'] at h'
            · cases h; cases h'
              exact ⟨Eq.refl _, Eq.refl _, by rw [safeTy_kind hS, safeTy_kind hS']⟩
            · cases h'
            · cases h'
          · cases h
          · cases h
        · cases h
      · cases h
    · rename_i hs
      rw [if_neg hs] at h'
      cases h; cases h'
      exact ⟨Eq.refl _, Eq.refl _, Eq.refl _⟩
  exact ⟨k.1, k.2.1, k.2.2, p1, p2, p3⟩

/-- the type of an expression -/
theorem ty_wider {N : Names} (hn : Native N) {n : Nat} {Γ Γ' : Fin n → PTy N} (hw : ∀ i, Wider (Γ i) (Γ' i)) :
    ∀ (e : LExpr N n) {T T' : PTy N}, ESigned e → e.ty Γ = .ret T → e.ty Γ' = .ret T' → Wider T T'
  | .var i, T, T', _, h, h' => by cases h; cases h'; exact hw i
  | .const B c, T, T', hs, h, h' => by cases h; cases h'; exact Wider.rfl hs
  | .lit L, T, T', hs, h, h' => by cases h; cases h'; exact Wider.rfl hs
  | .cast S a, T, T', hs, h, h' => by cases h; cases h'; exact Wider.rfl hs.1
  | .pos a, T, T', hs, h, h' => by
    simp only [LExpr.ty] at h h'
    rcases ty_st Γ a with ⟨A, ea⟩ | ea <;> rw [ea] at h
    · rcases ty_st Γ' a with ⟨A', ea'⟩ | ea' <;> rw [ea'] at h'
      · have hA := ty_wider hn hw a hs ea ea'
        cases h; cases h'
        unfold posTyOf
        rw [hA.kind]
        split
        · refine ⟨Eq.refl _, Eq.refl _, Eq.refl _, ?_, ?_, ?_⟩
          · show (promote (promote A.opd.base)).signed = true
            rw [promote_promote]; exact hA.s
          · show (promote (promote A'.opd.base)).signed = true
            rw [promote_promote]; exact hA.s'
          · show (promote (promote A.opd.base)).lg ≤ (promote (promote A'.opd.base)).lg
            rw [promote_promote, promote_promote]; exact hA.w
        · exact hA
      · cases h'
    · cases h
  | .neg a, T, T', hs, h, h' => by
    simp only [LExpr.ty] at h h'
    rcases ty_st Γ a with ⟨A, ea⟩ | ea <;> rw [ea] at h
    · rcases ty_st Γ' a with ⟨A', ea'⟩ | ea' <;> rw [ea'] at h'
      · have hA := ty_wider hn hw a hs ea ea'
        rw [ret_bind] at h h'
        unfold negTyOf at h h'
        rw [hA.kind] at h'
        rcases hk : A.opd.kind with _ | _ | b <;> rw [hk] at h h' <;> dsimp only at h h'
        · cases h; cases h'
          refine ⟨Eq.refl _, Eq.refl _, Eq.refl _, ?_, ?_, ?_⟩
          · show (promote (promote A.opd.base)).signed = true
            rw [promote_promote]; exact hA.s
          · show (promote (promote A'.opd.base)).signed = true
            rw [promote_promote]; exact hA.s'
          · show (promote (promote A.opd.base)).lg ≤ (promote (promote A'.opd.base)).lg
            rw [promote_promote, promote_promote]; exact hA.w
        · exact pBinTy_wider hn (Wider.rfl tInt_promoted) hA h h'
        · rcases hl : litMinus A.opd with L | x | x <;> rw [hl] at h
          · rcases hl' : litMinus A'.opd with L' | x | x <;> rw [hl'] at h'
            · obtain ⟨b1, k1⟩ := litMinus_base hl
              obtain ⟨b2, k2⟩ := litMinus_base hl'
              cases h; cases h'
              refine ⟨hA.pr, hA.ex, ?_, ?_, ?_, ?_⟩
              · show L'.kind = L.kind
                rw [k1, k2, hA.kind]
              · show PromotedSigned L.base
                rw [b1]; exact hA.s
              · show PromotedSigned L'.base
                rw [b2]; exact hA.s'
              · show (promote L.base).lg ≤ (promote L'.base).lg
                rw [b1, b2]; exact hA.w
            · cases h'
            · cases h'
          · cases h
          · cases h
      · cases h'
    · cases h
  | .bin o a b, T, T', hs, h, h' => by
    simp only [LExpr.ty] at h h'
    rcases ty_st Γ a with ⟨A, ea⟩ | ea <;> rw [ea] at h
    · rcases ty_st Γ b with ⟨C, eb⟩ | eb <;> rw [eb] at h
      · rcases ty_st Γ' a with ⟨A', ea'⟩ | ea' <;> rw [ea'] at h'
        · rcases ty_st Γ' b with ⟨C', eb'⟩ | eb' <;> rw [eb'] at h'
          · simp only [ret_bind] at h h'
            exact pBinTy_wider hn (ty_wider hn hw a hs.1 ea ea') (ty_wider hn hw b hs.2 eb eb') h h'
          · cases h'
        · cases h'
      · cases h
    · cases h

/-- the operations fit -/
theorem binFits_wider {N : Names} (hn : Native N) {o : Op2} {T U T' U' : PTy N} (wT : T.opd.Wf) (wU : U.opd.Wf)
    (hT : Wider T T') (hU : Wider U U') {t u : Int} (ht : T.opd.Has t) (hu : U.opd.Has u) (hf : BinFits o T U t u) :
    BinFits o T' U' t u := by
  intro q R' hq hR'
  rw [hT.pr, hU.pr] at hq
  rw [hn q] at hR'
  cases hR'
  have hf := hf q (nativeResult (opName o) T.opd.base U.opd.base) hq (by rw [hn q]; rfl)
  obtain ⟨a, b, c⟩ := native_signed (o := o) hT.s hU.s hT.s' hU.s' hT.w hU.w
  have wide : ∀ {x}, (nativeResult (opName o) T.opd.base U.opd.base).In x →
      (nativeResult (opName o) T'.opd.base U'.opd.base).In x := fun hx => in_wider a b c hx
  have hd : (nativeResult (opName o) T.opd.base U.opd.base).digits ≤ (nativeResult (opName o) T'.opd.base U'.opd.base).digits := by
    unfold ITy.digits ITy.bits
    rw [a, b]
    have := Nat.pow_le_pow_right (show 0 < 2 by decide) c
    simp; omega
  refine Or.inl ?_
  rcases hf with ⟨h1, h2, ⟨v, h3, h4⟩, h5, h6⟩ | ⟨ho, hz⟩
  · refine ⟨wide h1, wide h2, ⟨v, h3, wide h4⟩, fun h => ?_, fun h => ?_⟩
    · have := h5 h
      rcases this with k | k | k
      · exact Or.inl k
      · exact Or.inr (Or.inl k)
      · exact Or.inr (Or.inr ⟨k.1, by omega⟩)
    · have := h6 h
      omega
  · subst ho
    obtain ⟨it, iu⟩ := native_in wT wU ht hu (Or.inl a)
    have : t * u = 0 := by
      have t1 := ht.1; have t2 := ht.2; have u1 := hu.1; have u2 := hu.2
      rcases hz with ⟨a, b, _⟩ | ⟨a, b, _⟩
      · have : t = 0 := by omega
        rw [this, Int.zero_mul]
      · have : u = 0 := by omega
        rw [this, Int.mul_zero]
    refine ⟨wide it, wide iu, ⟨t * u, rfl, ?_⟩, fun h => ?_, fun h => ?_⟩
    · rw [this]; exact ITy.in_zero _
    · cases h
    · cases h

theorem eval_wider {N : Names} (hN : Careful N) (hn : Native N) {n : Nat} {Γ Γ' : Fin n → PTy N} (hΓ : GoodVars Γ)
    (hw : ∀ i, Wider (Γ i) (Γ' i)) {s : Fin n → Int} (hs : Ranged Γ s) : ∀ (e : LExpr N n) {v : Int}, ECovered Γ e →
      ESigned e → e.eval Γ s = .ret v → EFits Γ' s e
  | .var _, _, _, _, _ => trivial
  | .const _ _, _, _, _, _ => trivial
  | .lit _, _, _, _, _ => trivial
  | .pos a, _, h, g, hv => eval_wider hN hn hΓ hw hs a h g hv
  | .cast S a, v, h, g, hv => by
    have hf := eval_fits hN hΓ hs _ h hv
    refine ⟨?_, hf.2⟩
    simp only [LExpr.eval] at hv
    rcases ty_st Γ a with ⟨A, ea⟩ | ea <;> rw [ea] at hv
    · rcases va : a.eval Γ s with x | x | x <;> rw [va] at hv
      · exact eval_wider hN hn hΓ hw hs a h.1 g.2 va
      · cases hv
      · cases hv
    · cases hv
  | .neg a, v, h, g, hv => by
    have hf := eval_fits hN hΓ hs _ h hv
    simp only [LExpr.eval] at hv
    rcases eval_good hN hΓ hs a h.1 with ⟨A, x, ea, wA, va, hx, mx⟩ | ⟨x, ex⟩ | ex
    · refine ⟨eval_wider hN hn hΓ hw hs a h.1 g va, fun T' t ha' hk ht => ?_⟩
      have hA := ty_wider hn hw a g ea ha'
      rw [mx] at ht; cases ht
      exact binFits_wider hn (pbuiltin_wf tInt_ok).1 wA.1 (Wider.rfl tInt_promoted) hA (ITy.in_zero tInt) hx
        (hf.2 A x ea (by rw [← hA.kind]; exact hk) mx)
    · rcases ty_st Γ a with ⟨A, ea⟩ | ea <;> rw [ea] at hv
      · rw [ex] at hv; cases hv
      · cases hv
    · rcases ty_st Γ a with ⟨A, ea⟩ | ea <;> rw [ea] at hv
      · rw [ex] at hv; cases hv
      · cases hv
  | .bin o a b, v, h, g, hv => by
    have hf := eval_fits hN hΓ hs _ h hv
    simp only [LExpr.eval] at hv
    rcases ty_st Γ a with ⟨A, ea⟩ | ea <;> rw [ea] at hv
    · rcases ty_st Γ b with ⟨B, eb⟩ | eb <;> rw [eb] at hv
      · simp only [ret_bind] at hv
        rcases eval_good hN hΓ hs a h.1 with ⟨A', x, ea', wA, va, hx, mx⟩ | ⟨x, ex⟩ | ex
        · rw [ea] at ea'; obtain rfl := Out.ret.inj ea'
          rw [va, ret_bind] at hv
          rcases eval_good hN hΓ hs b h.2.1 with ⟨B', y, eb', wB, vb, hy, my⟩ | ⟨x, ex⟩ | ex
          · rw [eb] at eb'; obtain rfl := Out.ret.inj eb'
            refine ⟨eval_wider hN hn hΓ hw hs a h.1 g.1 va, eval_wider hN hn hΓ hw hs b h.2.1 g.2 vb,
              fun T' U' t u ha' hb' ht hu => ?_⟩
            rw [mx] at ht; cases ht
            rw [my] at hu; cases hu
            exact binFits_wider hn wA.1 wB.1 (ty_wider hn hw a g.1 ea ha') (ty_wider hn hw b g.2 eb hb') hx hy
              (hf.2.2 A B x y ea eb mx my)
          · rw [ex] at hv; cases hv
          · rw [ex] at hv; cases hv
        · rw [ex] at hv; cases hv
        · rw [ex] at hv; cases hv
      · cases hv
    · cases hv

/-- comparisons of types promoted to signed types always fit -/
theorem cmp_wider {N : Names} (hn : Native N) {o : Rel} {T U T' U' : PTy N} (hT : Wider T T') (hU : Wider U U') {t u : Int}
    (ht : T.opd.base.In t) (hu : U.opd.base.In u) {q : N.P} {R : ITy} (h : cmpType (N.prom q) o T'.opd U'.opd = .ret R) :
    CmpFits R o T'.opd U'.opd t u := by
  have it : (promote T'.opd.base).In t := in_wider hT.s hT.s' hT.w (in_promote ht)
  have iu : (promote U'.opd.base).In u := in_wider hU.s hU.s' hU.w (in_promote hu)
  have k := uac_wide hT.s' hU.s'
  have k' := uac_wide hU.s' hT.s'
  rw [hn q] at h
  have : R = uac T'.opd.base U'.opd.base ∨ R = uac U'.opd.base T'.opd.base := by
    cases o <;> cases h <;> simp [nativeResult]
  rcases this with rfl | rfl
  · exact Or.inl ⟨in_wider hT.s' k.1 (by rw [k.2]; omega) it, in_wider hU.s' k.1 (by rw [k.2]; omega) iu⟩
  · exact Or.inl ⟨in_wider hT.s' k'.1 (by rw [k'.2]; omega) it, in_wider hU.s' k'.1 (by rw [k'.2]; omega) iu⟩

theorem cond_wider {N : Names} (hN : Careful N) (hn : Native N) {n : Nat} {Γ Γ' : Fin n → PTy N} (hΓ : GoodVars Γ)
    (hw : ∀ i, Wider (Γ i) (Γ' i)) {s : Fin n → Int} (hs : Ranged Γ s) : ∀ (c : LCond N n) {b : Bool}, CCovered Γ c →
      CSigned c → c.eval Γ s = .ret b → CFits Γ' s c
  | .cmp o a b, r, h, g, hv => by
    simp only [LCond.eval] at hv
    rcases ty_st Γ a with ⟨A, ea⟩ | ea <;> rw [ea] at hv
    · rcases ty_st Γ b with ⟨B, eb⟩ | eb <;> rw [eb] at hv
      · simp only [ret_bind] at hv
        rcases eval_good hN hΓ hs a h.1 with ⟨A', x, ea', wA, va, hx, mx⟩ | ⟨x, ex⟩ | ex
        · rw [ea] at ea'; obtain rfl := Out.ret.inj ea'
          rw [va, ret_bind] at hv
          rcases eval_good hN hΓ hs b h.2.1 with ⟨B', y, eb', wB, vb, hy, my⟩ | ⟨x, ex⟩ | ex
          · rw [eb] at eb'; obtain rfl := Out.ret.inj eb'
            refine ⟨eval_wider hN hn hΓ hw hs a h.1 g.1 va, eval_wider hN hn hΓ hw hs b h.2.1 g.2 vb,
              fun T' U' t u q R ha' hb' ht hu hq hR => ?_⟩
            rw [mx] at ht; cases ht
            rw [my] at hu; cases hu
            exact cmp_wider hn (ty_wider hn hw a g.1 ea ha') (ty_wider hn hw b g.2 eb hb') (wA.1.has_in hx) (wB.1.has_in hy) hR
          · rw [ex] at hv; cases hv
          · rw [ex] at hv; cases hv
        · rw [ex] at hv; cases hv
        · rw [ex] at hv; cases hv
      · cases hv
    · cases hv
  | .truth a, r, h, g, hv => by
    have hf := cond_fits hN hΓ hs _ h hv
    simp only [LCond.eval] at hv
    rcases eval_good hN hΓ hs a h with ⟨A, x, ea, wA, vx, hx, mx⟩ | ⟨x, ex⟩ | ex
    · refine ⟨eval_wider hN hn hΓ hw hs a h g vx, fun T' t hT' ht hsafe => hf.2 A t ea ht ?_⟩
      rw [← (ty_wider hn hw a g ea hT').isSafe]
      exact hsafe
    · rcases ty_st Γ a with ⟨A, ea⟩ | ea <;> rw [ea] at hv
      · rw [ex] at hv; cases hv
      · cases hv
    · rcases ty_st Γ a with ⟨A, ea⟩ | ea <;> rw [ea] at hv
      · rw [ex] at hv; cases hv
      · cases hv
  | .not a, r, h, g, hv => by
    simp only [LCond.eval] at hv
    obtain ⟨c, hv⟩ := ret_not hv
    exact cond_wider hN hn hΓ hw hs a h g hv
  | .and a b, r, h, g, hv => by
    simp only [LCond.eval] at hv
    rcases cond_good hN hΓ hs a h.1 with ⟨x, h1, h2⟩ | ⟨e, h1⟩ | h1 <;> rw [h1] at hv
    · refine ⟨cond_wider hN hn hΓ hw hs a h.1 g.1 h1, fun h3 => ?_⟩
      rw [h2] at h3; cases h3
      exact cond_wider hN hn hΓ hw hs b h.2 g.2 hv
    · cases hv
    · cases hv
  | .or a b, r, h, g, hv => by
    simp only [LCond.eval] at hv
    rcases cond_good hN hΓ hs a h.1 with ⟨x, h1, h2⟩ | ⟨e, h1⟩ | h1 <;> rw [h1] at hv
    · refine ⟨cond_wider hN hn hΓ hw hs a h.1 g.1 h1, fun h3 => ?_⟩
      rw [h2] at h3; cases h3
      exact cond_wider hN hn hΓ hw hs b h.2 g.2 hv
    · cases hv
    · cases hv

end
end Verif
