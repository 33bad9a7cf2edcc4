import Verif.BareSpec
import Verif.Proofs.Fits
import Verif.Props.Lang

/-!
Helper lemmas for C74: operations that fit the type of the built-in expression have the same value on built-in types.
-/

namespace Verif
open Spec Lang Props

section
variable [Arch]

theorem uac_congr {B C T U : ITy} (h1 : promote B = promote T) (h2 : promote C = promote U) : uac B C = uac T U := by
  rw [← uac_promote_left B, ← uac_promote_right (promote B), h1, h2, uac_promote_right, uac_promote_left]

/-- values of both operand types, when the result type is unsigned and no operand is negative or it is signed -/
theorem native_in {T U : Opd} (hT : T.Wf) (hU : U.Wf) {t u : Int} (ht : T.Has t) (hu : U.Has u)
    (h : (uac T.base U.base).signed = true ∨ (0 ≤ T.lo ∧ 0 ≤ U.lo)) :
    (uac T.base U.base).In t ∧ (uac T.base U.base).In u := by
  obtain ⟨⟨f1, f2⟩, ⟨g1, g2⟩⟩ := native_fits hT hU
  have t1 := ht.1; have t2 := ht.2; have u1 := hu.1; have u2 := hu.2
  have hm := (uac T.base U.base).min_nonpos
  rcases h with h | h
  · have := f2 h; have := g2 h
    exact ⟨⟨by omega, by omega⟩, ⟨by omega, by omega⟩⟩
  · exact ⟨⟨by omega, by omega⟩, ⟨by omega, by omega⟩⟩

/-- the built-in bitwise operators -/
def cBit : Bitwise → ITy → ITy → Int → Int → Int
  | .bor => cOr
  | .band => cAnd
  | .bxor => cXor

omit [Arch] in
theorem ofBits_in {R : ITy} (b : BitVec R.bits) : R.In (ofBits R b) := by
  rw [← BitVec.ofInt_toInt (x := b), ofBits_ofInt]
  exact conv_in _ _

theorem cBit_low {o : Bitwise} {B C : ITy} {t u : Int} {i : Nat} (hi : i < (uac B C).bits) :
    bit (cBit o B C t u) i = logic o (bit t i) (bit u i) := by
  cases o <;> simp only [cBit, cOr, cAnd, cXor, logic] <;> rw [bit_ofBits _ hi] <;>
    simp only [BitVec.getLsbD_or, BitVec.getLsbD_and, BitVec.getLsbD_xor] <;> rw [getLsbD_ofInt, getLsbD_ofInt,
    bit_congr hi (conv_congr _ t), bit_congr hi (conv_congr _ u)] <;> simp [hi]

theorem cBit_bits {o : Bitwise} {B C : ITy} {t u : Int} (ht : (uac B C).In t) (hu : (uac B C).In u) (i : Nat) :
    bit (cBit o B C t u) i = logic o (bit t i) (bit u i) := by
  have hin : (uac B C).In (cBit o B C t u) := by cases o <;> exact ofBits_in _
  have hb := (uac B C).bits_pos
  rw [bit_in hin, bit_in ht, bit_in hu, cBit_low (i := (uac B C).bits - 1) (by omega)]
  split
  · rename_i hi; exact cBit_low hi
  · cases (uac B C).signed <;> cases o <;> simp [logic]

omit [Arch] in
theorem in_toUnsigned {R : ITy} {x : Int} (h0 : 0 ≤ x) (h : R.In x) : R.toUnsigned.In x := by
  have hd : R.digits ≤ R.toUnsigned.digits := digits_le_bits R
  have := two_pow_le hd
  refine ⟨h0, ?_⟩
  have h2 := h.2
  unfold ITy.max at h2 ⊢
  omega

/-- an operation that fits the type of the built-in expression -/
theorem fits_bare {o : Op2} {T U : Opd} (hT : T.Wf) (hU : U.Wf) {B C : ITy} (eB : promote B = promote T.base)
    (eC : promote C = promote U.base) {t u v : Int} (ht : T.Has t) (hu : U.Has u)
    (hf : TyFits (nativeResult (opName o) T.base U.base) o T U t u) (hm : imath o t u = some v)
    (hl : o = .shl → 0 ≤ t ∨ 0 < u) (hw : o = .shr → ¬ FullWidth (promote T.base) u)
    (hr : o = .ar .mod → (uac T.base U.base).signed = true → t ≠ (uac T.base U.base).min) :
    o.cVal B C t u = .ret v := by
  have eu := uac_congr eB eC
  cases o with
  | ar a =>
    rcases hf with ⟨it, iu, ⟨w, hw', iw⟩, _⟩ | ⟨ho, hz⟩
    · rw [hm] at hw'; cases hw'
      have hR : nativeResult (opName (.ar a)) T.base U.base = uac B C := by rw [eu]; cases a <;> rfl
      rw [hR] at it iu iw
      cases a with
      | add => cases hm; exact cAdd_eq it iu iw
      | sub => cases hm; exact cSub_eq it iu iw
      | mul => cases hm; exact cMul_eq it iu iw
      | div =>
        simp only [imath] at hm
        split at hm
        · cases hm
        · cases hm; exact cDiv_eq it iu (by assumption) iw
      | mod =>
        simp only [imath] at hm
        split at hm
        · cases hm
        · cases hm; exact cMod_eq it iu (by assumption) fun _ => tdiv_in it iu (by assumption) fun g => by
            rw [eu] at g; exact hr rfl g.1 g.2.2
    · cases ho
      cases hm
      have hz' : (uac T.base U.base).signed = true ∨ (0 ≤ T.lo ∧ 0 ≤ U.lo) := by
        rcases hz with ⟨a, b, c | c⟩ | ⟨a, b, c | c⟩
        · exact Or.inl c
        · exact Or.inr ⟨by omega, c⟩
        · exact Or.inl c
        · exact Or.inr ⟨c, by omega⟩
      obtain ⟨it, iu⟩ := native_in hT hU ht hu hz'
      rw [← eu] at it iu
      refine cMul_eq it iu ?_
      have : t * u = 0 := by
        have t1 := ht.1; have t2 := ht.2; have u1 := hu.1; have u2 := hu.2
        rcases hz with ⟨a, b, _⟩ | ⟨a, b, _⟩
        · have : t = 0 := by omega
          rw [this, Int.zero_mul]
        · have : u = 0 := by omega
          rw [this, Int.mul_zero]
      rw [this]; exact ITy.in_zero _
  | bit b =>
    rcases hf with ⟨it, iu, ⟨w, hw', iw⟩, _⟩ | ⟨ho, hz⟩
    swap
    · cases ho
    have hR : nativeResult (opName (.bit b)) T.base U.base = uac B C := by rw [eu]; cases b <;> rfl
    rw [hR] at it iu
    have hb := cBit_bits (o := b) it iu
    have := logic_int hb
    rw [hm] at this
    cases b <;> exact congrArg Out.ret (Option.some.inj this).symm
  | shl =>
    rcases hf with ⟨it, iu, ⟨w, hw', iw⟩, hc, _⟩ | ⟨ho, hz⟩
    swap
    · cases ho
    have hm' := hm
    simp only [imath] at hm
    split at hm
    swap
    · cases hm
    rename_i u0
    cases hm
    rw [hm'] at hw'; cases hw'
    have hR : nativeResult (opName .shl) T.base U.base = promote B := by rw [eB]; rfl
    rw [hR] at it iu iw hc
    have hc := hc rfl
    have hl := hl rfl
    have iu' : (promote C).In u := by rw [eC]; exact in_promote (hU.has_in hu)
    show cShl B C t u = _
    unfold cShl
    dsimp only
    rw [conv_of_in it, conv_of_in iu']
    have hd : u < (promote B).digits := by
      rcases hc with hc | hc | hc
      · have := (promote B).bits_pos; unfold ITy.digits; split <;> omega
      · by_contra hn
        have g := two_pow_le (show (promote B).digits ≤ u.toNat by omega)
        have g2 := iw.2
        have : (1 : Int) * 2 ^ u.toNat ≤ t * 2 ^ u.toNat :=
          Int.mul_le_mul_of_nonneg_right (by omega) (Int.le_of_lt (two_pow_pos _))
        unfold ITy.max at g2
        omega
      · exact hc.2
    have hdb := digits_le_bits (promote B)
    have t0 : 0 ≤ t := by
      rcases hc with hc | hc | hc <;> omega
    have x0 : 0 ≤ t * 2 ^ u.toNat := Int.mul_nonneg t0 (Int.le_of_lt (two_pow_pos _))
    rw [if_neg (by omega)]
    split
    · rw [if_neg (by omega), if_pos (in_toUnsigned x0 iw), conv_of_in iw]
    · rw [conv_of_in iw]
  | shr =>
    rcases hf with ⟨it, iu, ⟨w, hw', iw⟩, _, hc⟩ | ⟨ho, hz⟩
    swap
    · cases ho
    have hm' := hm
    simp only [imath] at hm
    split at hm
    swap
    · cases hm
    rename_i u0
    cases hm
    have hR : nativeResult (opName .shr) T.base U.base = promote B := by rw [eB]; rfl
    rw [hR] at it iu iw hc
    have hc := hc rfl
    have hw := hw rfl
    have iu' : (promote C).In u := by rw [eC]; exact in_promote (hU.has_in hu)
    show cShr B C t u = _
    unfold cShr
    dsimp only
    rw [conv_of_in it, conv_of_in iu']
    rw [if_neg]
    have hb : u ≠ (promote B).bits ∨ (promote B).signed = true := by
      by_contra hn
      simp only [not_or, not_not, Bool.not_eq_true] at hn
      rw [eB] at hn
      exact hw ⟨hn.2, promote_lg' _, hn.1⟩
    have hdb := digits_le_bits (promote B)
    rcases hb with hb | hb
    · omega
    · have : (promote B).digits + 1 = (promote B).bits := by
        have := (promote B).bits_pos
        unfold ITy.digits; rw [hb]; simp; omega
      omega

/-! ### expressions -/

/-- the types of the variables of the program with built-in types -/
abbrev bareVars {N : Names} {n : Nat} (Γ : Fin n → PTy N) : Fin n → PTy N := fun i => bareTy (Γ i)

omit [Arch] in
theorem builtin_not_safe {N : Names} (B : ITy) : (PTy.builtin B : PTy N).isSafe = false := rfl

theorem resTy_base {f : ITy → Itv CR → Itv CR → Out (Itv CR)} {R : ITy} {T U S : Opd} (h : resTy f R T U = .ret S) :
    S.base = R := by
  unfold resTy at h
  rcases hx : resItv f R T U with ri | x | x <;> rw [hx] at h
  · cases h; rfl
  · cases h
  · cases h

theorem bitTy_base {pick : Int → Int → Int} {R : ITy} {T U S : Opd} (h : bitTy pick R T U = .ret S) : S.base = R := by
  unfold bitTy at h
  dsimp only at h
  rcases hx : Out.static (roundOut R.toUnsigned (pick (conv R.toUnsigned T.hi) (conv R.toUnsigned U.hi))) with m | x | x <;>
    rw [hx] at h
  · rw [ret_bind] at h
    split at h
    · cases h; rfl
    · cases h
  · cases h
  · cases h

theorem safeTy_base {o : Op2} {T U S : Opd} (h : o.safeTy .native T U = .ret S) :
    S.base = nativeResult (opName o) T.base U.base := by
  cases o with
  | ar a => exact resTy_base h
  | bit b => exact bitTy_base h
  | shl => exact resTy_base h
  | shr => exact resTy_base h

theorem cTy_congr {o : Op2} {B C T U : ITy} (h1 : promote B = promote T) (h2 : promote C = promote U) :
    o.cTy B C = nativeResult (opName o) T U := by
  have := uac_congr h1 h2
  cases o with
  | ar a => cases a <;> exact this
  | bit b => cases b <;> exact this
  | shl => exact h1
  | shr => exact h1

/-- the type of an operation with built-in operands -/
theorem pBinTy_bare {N : Names} (hn : Native N) {o : Op2} {T U S : PTy N} (h : pBinTy o T U = .ret S) {B C : ITy}
    (h1 : promote B = promote T.opd.base) (h2 : promote C = promote U.opd.base) :
    pBinTy o (PTy.builtin B) (PTy.builtin C) = .ret (PTy.builtin S.opd.base : PTy N) := by
  have e : S.opd.base = nativeResult (opName o) T.opd.base U.opd.base := by
    unfold pBinTy at h
    split at h
    · rcases common_st T.pr U.pr with ⟨q, eq⟩ | eq <;> rw [eq] at h
      · rcases common_st T.ex U.ex with ⟨x, ex⟩ | ex <;> rw [ex] at h
        · simp only [ret_bind] at h
          rw [hn q] at h
          rcases hS : o.safeTy .native T.opd U.opd with S' | y | y <;> rw [hS] at h
          · cases h; exact safeTy_base hS
          · cases h
          · cases h
        · cases h
      · cases h
    · cases h
      exact cTy_congr rfl rfl
  rw [e, ← cTy_congr h1 h2]
  rfl

theorem bare_promote {B T : ITy} (h : B = T ∨ B = promote T) : promote B = promote T := by
  rcases h with rfl | rfl
  · rfl
  · exact promote_promote T

theorem ty_bare {N : Names} (hn : Native N) {n : Nat} {Γ : Fin n → PTy N} : ∀ (e : LExpr N n) {T : PTy N}, e.ty Γ = .ret T →
    ∃ B, (bareE e).ty (bareVars Γ) = .ret (PTy.builtin B) ∧ (B = T.opd.base ∨ B = promote T.opd.base)
  | .var i, T, h => by cases h; exact ⟨_, rfl, Or.inl rfl⟩
  | .const B c, T, h => by cases h; exact ⟨_, rfl, Or.inl rfl⟩
  | .lit L, T, h => by cases h; exact ⟨_, rfl, Or.inl rfl⟩
  | .cast S a, T, h => by cases h; exact ⟨_, rfl, Or.inl rfl⟩
  | .pos a, T, h => by
    simp only [LExpr.ty] at h
    rcases ty_st Γ a with ⟨A, ea⟩ | ea <;> rw [ea] at h
    · cases h
      obtain ⟨B, hB, hp⟩ := ty_bare hn a ea
      refine ⟨promote B, ?_, Or.inr ?_⟩
      · simp only [bareE, LExpr.ty]; rw [hB]; rfl
      · rw [bare_promote hp]
        unfold posTyOf
        split
        · exact (promote_promote _).symm
        · rfl
    · cases h
  | .neg a, T, h => by
    simp only [LExpr.ty] at h
    rcases ty_st Γ a with ⟨A, ea⟩ | ea <;> rw [ea] at h
    · rw [ret_bind] at h
      obtain ⟨B, hB, hp⟩ := ty_bare hn a ea
      refine ⟨promote B, ?_, Or.inr ?_⟩
      · simp only [bareE, LExpr.ty]; rw [hB]; rfl
      · rw [bare_promote hp]
        unfold negTyOf at h
        split at h
        · cases h; exact (promote_promote _).symm
        · have := pBinTy_bare hn h (B := tInt) (C := A.opd.base) rfl rfl
          have : (PTy.builtin (uac tInt A.opd.base) : PTy N) = PTy.builtin T.opd.base := Out.ret.inj this
          have : uac tInt A.opd.base = T.opd.base := congrArg (fun x : PTy N => x.opd.base) this
          rw [← this, uac_int_left, promote_promote]
        · rcases hl : litMinus A.opd with L | x | x <;> rw [hl] at h
          · cases h
            have : L.base = A.opd.base := by
              unfold litMinus at hl
              rcases h1 : minus A.opd.base make A.opd.lo with c | x | x <;> rw [h1] at hl
              · rw [ret_bind] at hl
                split at hl
                · cases hl
                · rcases h2 : cNeg A.opd.base A.opd.lo with v | x | x <;> rw [h2] at hl
                  · rw [ret_bind] at hl
                    split at hl
                    · cases hl; rfl
                    · cases hl
                  · cases hl
                  · cases hl
              · cases hl
              · cases hl
            show promote A.opd.base = promote L.base
            rw [this]
          · cases h
          · cases h
    · cases h
  | .bin o a b, T, h => by
    simp only [LExpr.ty] at h
    rcases ty_st Γ a with ⟨A, ea⟩ | ea <;> rw [ea] at h
    · rcases ty_st Γ b with ⟨C, eb⟩ | eb <;> rw [eb] at h
      · simp only [ret_bind] at h
        obtain ⟨B, hB, hp⟩ := ty_bare hn a ea
        obtain ⟨D, hD, hq⟩ := ty_bare hn b eb
        refine ⟨T.opd.base, ?_, Or.inl rfl⟩
        simp only [bareE, LExpr.ty]
        rw [hB, hD]
        exact pBinTy_bare hn h (bare_promote hp) (bare_promote hq)
      · cases h
    · cases h

/-- an operation of the library that returns, and the built-in operation -/
theorem pbin_bare {N : Names} (hN : Careful N) (hn : Native N) {o : Op2} {T U : PTy N} (hT : PTy.Wf T) (hU : PTy.Wf U)
    (hc : BinCovered o T U) (hb : ShlBare o T U) {B C : ITy} (eB : promote B = promote T.opd.base)
    (eC : promote C = promote U.opd.base) {t u v : Int} (ht : T.opd.Has t) (hu : U.opd.Has u)
    (h : pBinVal o T U t u = .ret v) : o.cVal B C t u = .ret v := by
  have hf := pbin_fits hN hT hU hc ht hu h
  have hm : imath o t u = some v := by
    rcases pbin_good hN hT hU hc ht hu with ⟨S, w, _, _, e, _, hm⟩ | ⟨x, e⟩ | e
    · rw [h] at e; cases e; exact hm
    · rw [h] at e; cases e
    · rw [h] at e; cases e
  obtain ⟨hs, hc⟩ := hc
  unfold pBinVal at h
  rw [isSafe_or hs, if_pos rfl] at h
  rcases common_st T.pr U.pr with ⟨q, eq⟩ | eq <;> rw [eq] at h
  · rcases common_st T.ex U.ex with ⟨x, ex⟩ | ex <;> rw [ex] at h
    · have hR : (N.prom q).result (opName o) T.opd U.opd = .ret (nativeResult (opName o) T.opd.base U.opd.base) := by
        rw [hn q]; rfl
      refine fits_bare hT.1 hU.1 eB eC ht hu (hf q _ eq hR) hm ?_ ?_ ?_
      · intro ho
        have t1 := ht.1; have u1 := hu.1
        have := hb ho
        omega
      · rintro rfl
        exact ((hc q x eq ex).2 _ hR).2 u hu
      · rintro rfl hsg hmin
        exact ((hc q x eq ex).1 _ hR).2 hsg (hmin ▸ ht)
    · cases h
  · cases h

theorem eval_bare {N : Names} (hN : Careful N) (hn : Native N) {n : Nat} {Γ : Fin n → PTy N} (hΓ : GoodVars Γ)
    {s : Fin n → Int} (hs : Ranged Γ s) : ∀ (e : LExpr N n) {v : Int}, ECovered Γ e → EBare Γ e → e.eval Γ s = .ret v →
    (bareE e).eval (bareVars Γ) s = .ret v
  | .var _, _, _, _, h => h
  | .const _ _, _, _, _, h => h
  | .lit _, _, _, _, h => h
  | .pos a, _, h, hb, g => eval_bare hN hn hΓ hs a h hb g
  | .cast S a, v, h, hb, g => by
    obtain ⟨ha, hc⟩ := h
    simp only [LExpr.eval] at g
    rcases ty_st Γ a with ⟨A, ea⟩ | ea <;> rw [ea] at g
    · rcases eval_good hN hΓ hs a ha with ⟨A', x, ea', wA, vx, hx, mx⟩ | ⟨x, ex⟩ | ex
      · rw [ea] at ea'; obtain rfl := Out.ret.inj ea'
        rw [ret_bind, vx, ret_bind] at g
        obtain ⟨B, hB, hp⟩ := ty_bare hn a ea
        simp only [bareE, LExpr.eval]
        rw [hB, eval_bare hN hn hΓ hs a ha hb vx]
        show Out.ret (conv S.opd.base x) = _
        rcases conv_good hN wA (hc A ea) hx with ⟨h1, h2⟩ | ⟨e, h⟩ | h
        · rw [h1] at g
          rw [conv_of_in ((hc A ea).1.1.has_in h2)]; exact g
        · rw [h] at g; cases g
        · rw [h] at g; cases g
      · rw [ex] at g; cases g
      · rw [ex] at g; cases g
    · cases g
  | .neg a, v, h, hb, g => by
    obtain ⟨ha, hc⟩ := h
    simp only [LExpr.eval] at g
    rcases ty_st Γ a with ⟨A, ea⟩ | ea <;> rw [ea] at g
    · rcases eval_good hN hΓ hs a ha with ⟨A', x, ea', wA, vx, hx, mx⟩ | ⟨x, ex⟩ | ex
      · rw [ea] at ea'; obtain rfl := Out.ret.inj ea'
        rw [ret_bind, vx, ret_bind] at g
        obtain ⟨B, hB, hp⟩ := ty_bare hn a ea
        simp only [bareE, LExpr.eval]
        rw [hB, eval_bare hN hn hΓ hs a ha hb vx]
        show cNeg B x = _
        have hv : v = -x := by
          rcases neg_good hN wA (hc A ea) hx with ⟨_, w, _, _, e, _, hm⟩ | ⟨y, e⟩ | e
          · rw [g] at e; cases e; cases hm; rfl
          · rw [g] at e; cases e
          · rw [g] at e; cases e
        have hin : (promote B).In x := by rw [bare_promote hp]; exact in_promote (wA.1.has_in hx)
        have hvin : (promote B).In (-x) := by
          rw [bare_promote hp]
          unfold negValOf at g
          split at g
          · rename_i hk
            have := hc A ea
            simp [PTy.isSafe, hk] at this
          · have hcov : BinCovered (.ar .sub) (PTy.builtin tInt) A := ⟨Or.inr (hc A ea), fun q e _ _ => trivial⟩
            have hf := pbin_fits hN (o := .ar .sub) (pbuiltin_wf tInt_ok) wA hcov (t := 0) (ITy.in_zero tInt) hx g
            rcases common_st (PTy.builtin tInt : PTy N).pr A.pr with ⟨q, eq⟩ | eq
            · have hR : (N.prom q).result (opName (.ar .sub)) (PTy.builtin tInt : PTy N).opd A.opd =
                  .ret (uac tInt A.opd.base) := by
                rw [hn q]; rfl
              rcases hf q _ eq hR with ⟨_, _, ⟨w, hw, iw⟩, _⟩ | ⟨ho, _⟩
              · cases hw
                rw [uac_int_left] at iw
                simpa using iw
              · cases ho
            · unfold pBinVal at g
              rw [isSafe_or (Or.inr (hc A ea)), if_pos rfl, eq] at g
              cases g
          · rename_i b hk
            have e1 := wA.1.2.2.2.2.2 b hk
            have et : x = A.opd.lo := by have := hx.1; have := hx.2; omega
            have eT : A.opd = ⟨A.opd.base, A.opd.lo, A.opd.lo, .lit b⟩ := by
              rcases h : A.opd with ⟨B, l, u, k⟩
              rw [h] at e1 hk; dsimp only at e1 hk ⊢; subst e1 hk; rfl
            rw [eT, C40_minus _ _ _ wA.1.2.1] at g
            split at g
            · rename_i hi
              rw [et]; exact in_promote hi
            · cases g
        rw [cNeg_eq hin hvin, hv]
      · rw [ex] at g; cases g
      · rw [ex] at g; cases g
    · cases g
  | .bin o a b, v, h, hb, g => by
    obtain ⟨ha, hb', hc⟩ := h
    obtain ⟨ba, bb, bs⟩ := hb
    simp only [LExpr.eval] at g
    rcases ty_st Γ a with ⟨A, ea⟩ | ea <;> rw [ea] at g
    · rcases ty_st Γ b with ⟨C, eb⟩ | eb <;> rw [eb] at g
      · simp only [ret_bind] at g
        rcases eval_good hN hΓ hs a ha with ⟨A', x, ea', wA, vx, hx, mx⟩ | ⟨x, ex⟩ | ex
        · rw [ea] at ea'; obtain rfl := Out.ret.inj ea'
          rw [vx] at g
          rcases eval_good hN hΓ hs b hb' with ⟨B', y, eb', wB, vy, hy, my⟩ | ⟨y, ey⟩ | ey
          · rw [eb] at eb'; obtain rfl := Out.ret.inj eb'
            rw [vy] at g
            obtain ⟨B, hB, hp⟩ := ty_bare hn a ea
            obtain ⟨D, hD, hq⟩ := ty_bare hn b eb
            simp only [bareE, LExpr.eval]
            rw [hB, hD, eval_bare hN hn hΓ hs a ha ba vx, eval_bare hN hn hΓ hs b hb' bb vy]
            exact pbin_bare hN hn wA wB (hc A C ea eb) (bs A C ea eb) (bare_promote hp) (bare_promote hq) hx hy g
          · rw [ey] at g; cases g
          · rw [ey] at g; cases g
        · rw [ex] at g; cases g
        · rw [ex] at g; cases g
      · cases g
    · cases g

/-! ### conditions -/

theorem compare_bare {N : Names} (hN : Careful N) (hn : Native N) {o : Rel} {T U : PTy N} (hT : PTy.Wf T) (hU : PTy.Wf U)
    (hs : CmpCovered T U) (hb : CmpBare T U) {B C : ITy} (eB : promote B = promote T.opd.base)
    (eC : promote C = promote U.opd.base) {t u : Int} (ht : T.opd.Has t) (hu : U.opd.Has u) {r : Bool}
    (h : pCompare o T U t u = .ret r) : cRel o B C t u = r := by
  have hr : r = rel o t u := by
    rcases compare_good hN (o := o) hT hU hs ht hu with e | ⟨x, e⟩ | e <;> rw [h] at e <;> cases e
    rfl
  rcases cmp_cases hs with hs | ⟨_, hin, _⟩
  case inr =>
    have hin := hin t u ht hu
    rw [← uac_congr eB eC] at hin
    rw [hr, cRel_in hin.1 hin.2]
  unfold pCompare at h
  rw [isSafe_or hs, if_pos rfl] at h
  rcases common_st T.pr U.pr with ⟨q, eq⟩ | eq <;> rw [eq] at h
  · rcases common_st T.ex U.ex with ⟨x, ex⟩ | ex <;> rw [ex] at h
    · simp only [ret_bind] at h
      have hR : cmpType (N.prom q) o T.opd U.opd = .ret (uac T.opd.base U.opd.base) := by
        rw [hn q]
        have hc := uac_comm U.opd.base T.opd.base
        cases o
        · rfl
        · exact congrArg Out.ret hc
        · exact congrArg Out.ret hc
        · rfl
        · rfl
        · rfl
      have hin : (uac T.opd.base U.opd.base).In t ∧ (uac T.opd.base U.opd.base).In u := by
        rcases cmp_fits (hN.1 x) hT.1 hU.1 ht hu h hR with g | ⟨_, _, g | g⟩
        · exact g
        · exact native_in hT.1 hU.1 ht hu (hb (Or.inl g.1))
        · exact native_in hT.1 hU.1 ht hu (hb (Or.inr g.1))
      rw [← uac_congr eB eC] at hin
      rw [hr, cRel_in hin.1 hin.2]
    · cases h
  · cases h

theorem cond_bare {N : Names} (hN : Careful N) (hn : Native N) {n : Nat} {Γ : Fin n → PTy N} (hΓ : GoodVars Γ)
    {s : Fin n → Int} (hs : Ranged Γ s) : ∀ (c : LCond N n) {r : Bool}, CCovered Γ c → CBare Γ c → c.eval Γ s = .ret r →
    (bareC c).eval (bareVars Γ) s = .ret r
  | .cmp o a b, r, h, hb, g => by
    obtain ⟨ha, hb', hc⟩ := h
    obtain ⟨ba, bb, bs⟩ := hb
    simp only [LCond.eval] at g
    rcases ty_st Γ a with ⟨A, ea⟩ | ea <;> rw [ea] at g
    · rcases ty_st Γ b with ⟨C, eb⟩ | eb <;> rw [eb] at g
      · simp only [ret_bind] at g
        rcases eval_good hN hΓ hs a ha with ⟨A', x, ea', wA, vx, hx, mx⟩ | ⟨x, ex⟩ | ex
        · rw [ea] at ea'; obtain rfl := Out.ret.inj ea'
          rw [vx] at g
          rcases eval_good hN hΓ hs b hb' with ⟨B', y, eb', wB, vy, hy, my⟩ | ⟨y, ey⟩ | ey
          · rw [eb] at eb'; obtain rfl := Out.ret.inj eb'
            rw [vy] at g
            obtain ⟨B, hB, hp⟩ := ty_bare hn a ea
            obtain ⟨D, hD, hq⟩ := ty_bare hn b eb
            simp only [bareC, LCond.eval]
            rw [hB, hD, eval_bare hN hn hΓ hs a ha ba vx, eval_bare hN hn hΓ hs b hb' bb vy]
            exact congrArg Out.ret
              (compare_bare hN hn wA wB (hc A C ea eb) (bs A C ea eb) (bare_promote hp) (bare_promote hq) hx hy g)
          · rw [ey] at g; cases g
          · rw [ey] at g; cases g
        · rw [ex] at g; cases g
        · rw [ex] at g; cases g
      · cases g
    · cases g
  | .truth a, r, h, hb, g => by
    simp only [LCond.eval] at g
    rcases ty_st Γ a with ⟨A, ea⟩ | ea <;> rw [ea] at g
    · rcases eval_good hN hΓ hs a h with ⟨A', x, ea', wA, vx, hx, mx⟩ | ⟨x, ex⟩ | ex
      · rw [ea] at ea'; obtain rfl := Out.ret.inj ea'
        rw [ret_bind, vx, ret_bind] at g
        obtain ⟨B, hB, hp⟩ := ty_bare hn a ea
        simp only [bareC, LCond.eval]
        rw [hB, eval_bare hN hn hΓ hs a h hb vx]
        rcases truth_good hN wA hx with e | ⟨y, e⟩ | e
        · rw [e] at g; exact g
        · rw [e] at g; cases g
        · rw [e] at g; cases g
      · rw [ex] at g; cases g
      · rw [ex] at g; cases g
    · cases g
  | .not a, r, h, hb, g => by
    simp only [LCond.eval] at g
    obtain ⟨c, e⟩ := ret_not g
    rw [e] at g
    simp only [bareC, LCond.eval]
    rw [cond_bare hN hn hΓ hs a h hb e]
    exact g
  | .and a b, r, h, hb, g => by
    simp only [LCond.eval] at g
    simp only [bareC, LCond.eval]
    rcases cond_good hN hΓ hs a h.1 with ⟨x, h1, h2⟩ | ⟨e, h1⟩ | h1 <;> rw [h1] at g
    · rw [cond_bare hN hn hΓ hs a h.1 hb.1 h1]
      cases x
      · exact g
      · exact cond_bare hN hn hΓ hs b h.2 hb.2 g
    · cases g
    · cases g
  | .or a b, r, h, hb, g => by
    simp only [LCond.eval] at g
    simp only [bareC, LCond.eval]
    rcases cond_good hN hΓ hs a h.1 with ⟨x, h1, h2⟩ | ⟨e, h1⟩ | h1 <;> rw [h1] at g
    · rw [cond_bare hN hn hΓ hs a h.1 hb.1 h1]
      cases x
      · exact cond_bare hN hn hΓ hs b h.2 hb.2 g
      · exact g
    · cases g
    · cases g

/-! ### statements -/

theorem assign_bare {N : Names} (hN : Careful N) (hn : Native N) {n : Nat} {Γ : Fin n → PTy N} (hΓ : GoodVars Γ)
    {s : Fin n → Int} (hs : Ranged Γ s) {i : Fin n} {e : LExpr N n} (he : ECovered Γ e) (hb : EBare Γ e)
    (hc : ∀ T, e.ty Γ = .ret T → ConvCovered (Γ i) T) {v : Int} (g : assignVal Γ s i e = .ret v) :
    assignVal (bareVars Γ) s i (bareE e) = .ret v := by
  unfold assignVal at g ⊢
  rcases ty_st Γ e with ⟨A, ea⟩ | ea <;> rw [ea] at g
  · rcases eval_good hN hΓ hs e he with ⟨A', x, ea', wA, vx, hx, mx⟩ | ⟨x, ex⟩ | ex
    · rw [ea] at ea'; obtain rfl := Out.ret.inj ea'
      rw [ret_bind, vx, ret_bind] at g
      obtain ⟨B, hB, hp⟩ := ty_bare hn e ea
      rw [hB, eval_bare hN hn hΓ hs e he hb vx]
      show Out.ret (conv (Γ i).opd.base x) = _
      rcases conv_good hN wA (hc A ea) hx with ⟨h1, h2⟩ | ⟨e, h⟩ | h
      · rw [h1] at g
        rw [conv_of_in ((hc A ea).1.1.has_in h2)]; exact g
      · rw [h] at g; cases g
      · rw [h] at g; cases g
    · rw [ex] at g; cases g
    · rw [ex] at g; cases g
  · cases g

theorem opAssign_bare {N : Names} (hN : Careful N) (hn : Native N) {n : Nat} {Γ : Fin n → PTy N} (hΓ : GoodVars Γ)
    {s : Fin n → Int} (hs : Ranged Γ s) {o : Op2} {i : Fin n} {e : LExpr N n} (hc : AssignCovered Γ o i e) (hb : EBare Γ e)
    (hl : ∀ U, e.ty Γ = .ret U → ShlBare o (Γ i) U) {r : Int}
    (g : opAssignVal Γ s o i e = .ret r) : opAssignVal (bareVars Γ) s o i (bareE e) = .ret r := by
  obtain ⟨he, hc⟩ := hc
  unfold opAssignVal at g ⊢
  rcases ty_st Γ e with ⟨A, ea⟩ | ea <;> rw [ea] at g
  · rcases eval_good hN hΓ hs e he with ⟨A', x, ea', wA, vx, hx, mx⟩ | ⟨x, ex⟩ | ex
    · rw [ea] at ea'; obtain rfl := Out.ret.inj ea'
      rw [ret_bind, vx, ret_bind] at g
      obtain ⟨B, hB, hp⟩ := ty_bare hn e ea
      rw [hB, eval_bare hN hn hΓ hs e he hb vx]
      rcases pBinTy_st o (Γ i) A with ⟨S, es⟩ | es <;> rw [es] at g
      · rw [ret_bind] at g
        rcases pbin_good hN (hΓ i).1 wA (hc A ea) (hs i) hx with ⟨S', v, es', wS, hv', hS, hm⟩ | ⟨x, ex⟩ | ex
        · rw [es] at es'; obtain rfl := Out.ret.inj es'
          rw [hv', ret_bind] at g
          have k1 := pBinTy_bare hn es (B := (Γ i).opd.base) (C := B) rfl (bare_promote hp)
          have k2 := pbin_bare hN hn (hΓ i).1 wA (hc A ea) (hl A ea) (B := (Γ i).opd.base) (C := B) rfl (bare_promote hp)
            (hs i) hx hv'
          simp only [ret_bind]
          rw [show pBinTy o (bareVars Γ i) (PTy.builtin B) = _ from k1,
            show pBinVal o (bareVars Γ i) (PTy.builtin B) (s i) x = _ from k2]
          show Out.ret (conv (Γ i).opd.base v) = _
          rcases conv_good hN wS ⟨(hΓ i).1, (hΓ i).2, Or.inr (Or.inl (pBinTy_safe (hc A ea).1 es))⟩ hS with ⟨h1, h2⟩ | ⟨e, h⟩ | h
          · rw [h1] at g
            rw [conv_of_in ((hΓ i).1.1.has_in h2)]; exact g
          · rw [h] at g; cases g
          · rw [h] at g; cases g
        · rw [ex] at g; cases g
        · rw [ex] at g; cases g
      · cases g
    · rw [ex] at g; cases g
    · rw [ex] at g; cases g
  · cases g

/-- an input of the library that returns has done what the built-in input does -/
theorem input_bare {p : EP} (hp : p.ae = .throw ∨ p.ae = .trap) {T : Opd} (hT : T.Wf) (hc : T.base.lg ≠ 0) (old : Int) (s : IStream)
    (h : (input p T old s).1 = .ret ()) :
    input p T old s = (.ret (), (s.extract T.base id old).1, (s.extract T.base id old).2) := by
  rcases hp with hp | hp
  swap
  · unfold input at h; rw [inputStatic_trap hp hT] at h; cases h
  have hc : isCharTy T.base = false := by unfold isCharTy; simpa using hc
  unfold input at *
  rcases inputStatic_cases hp hT with e | ⟨e, _⟩
  · rw [e] at h; cases h
  rw [e] at h ⊢
  dsimp only at h ⊢
  rw [hc] at h ⊢
  simp only [Bool.false_eq_true, if_false] at h ⊢
  unfold inputInt at *
  rcases hx : (inputPrep T s).extract T.base id old with ⟨m, s'⟩
  rw [hx] at h
  dsimp only at h ⊢
  by_cases hf : s'.fail = true
  · rw [if_pos hf, dispatch_throw hp] at h; cases h
  · rw [if_neg hf] at h ⊢
    obtain ⟨g1, g2, _⟩ := extract_good (V := T.base) (st := id) (old := old) (s := inputPrep T s) (by rw [hx]; simpa using hf)
    have key : s.extract T.base id old = (m, s') := by
      rcases hs : T.base.signed with _ | _
      · rcases prep_cases hs s with (b | b) | ⟨k1, k2, k3, _⟩
        · rw [b] at g2; cases g2
        · rw [b] at g1; cases g1
        · rw [← hx, k3]
          unfold IStream.extract IStream.sentry
          simp only [k1, k2, dropWhile_idem]
          rfl
      · rw [← hx]
        have : inputPrep T s = s := by unfold inputPrep; rw [hs]; simp
        rw [this]
    rw [key]
    rcases hv : validate T.base T.lo T.hi p (Opd.ofBuiltin T.base) m with v | x | x <;> rw [hv] at h
    · cases h
    · cases h

theorem exec_bare {N : Names} (hN : Careful N) (hn : Native N) {n : Nat} {Γ : Fin n → PTy N} (hΓ : GoodVars Γ) :
    ∀ (f : Nat) (p : LStmt N n) (s s' : LState n), SCovered Γ p → SBare Γ p → Ranged Γ s.st →
      p.exec Γ f s = some (.ret (), s') → s'.caught = s.caught → (bareS p).exec (bareVars Γ) f s = some (.ret (), s')
  | 0, p, s, s', _, _, _, h, _ => by cases p <;> cases h
  | f + 1, .skip, s, s', _, _, _, h, _ => h
  | f + 1, .assign i e, s, s', hc, hb, hs, h, _ => by
    simp only [LStmt.exec, bareS, Option.some.injEq] at h ⊢
    rcases hv : assignVal Γ s.st i e with v | x | x <;> rw [hv] at h
    · rw [assign_bare hN hn hΓ hs hc.1 hb hc.2 hv]; exact h
    · cases h
    · cases h
  | f + 1, .opAssign o i e, s, s', hc, hb, hs, h, _ => by
    simp only [LStmt.exec, bareS, Option.some.injEq] at h ⊢
    rcases hv : opAssignVal Γ s.st o i e with v | x | x <;> rw [hv] at h
    · rw [opAssign_bare hN hn hΓ hs hc hb.1 hb.2 hv]; exact h
    · cases h
    · cases h
  | f + 1, .inc i, s, s', hc, hb, hs, h, _ => by
    simp only [LStmt.exec, bareS, Option.some.injEq] at h ⊢
    rcases hv : opAssignVal Γ s.st (.ar .add) i (.const tInt 1) with v | x | x <;> rw [hv] at h
    · have := opAssign_bare hN hn hΓ hs (inc_covered hc (Or.inl rfl)) trivial (fun _ _ => nofun) hv
      simp only [bareE] at this
      rw [this]; exact h
    · cases h
    · cases h
  | f + 1, .dec i, s, s', hc, hb, hs, h, _ => by
    simp only [LStmt.exec, bareS, Option.some.injEq] at h ⊢
    rcases hv : opAssignVal Γ s.st (.ar .sub) i (.const tInt 1) with v | x | x <;> rw [hv] at h
    · have := opAssign_bare hN hn hΓ hs (inc_covered hc (Or.inr rfl)) trivial (fun _ _ => nofun) hv
      simp only [bareE] at this
      rw [this]; exact h
    · cases h
    · cases h
  | f + 1, .input i, s, s', hc, hb, hs, h, _ => by
    obtain ⟨c1, c2, c3, c4⟩ := hc
    simp only [LStmt.exec, bareS, Option.some.injEq] at h ⊢
    have hsafe : (Γ i).opd.kind = .safe := (hΓ i).2.resolve_left (isSafe_kind c1)
    have hp := ep_careful hN ((hΓ i).1.2.2.1 hsafe).2
    have e : inputStep (Γ i) (s.st i) s.inp = Verif.input (Γ i).ep (Γ i).opd (s.st i) s.inp := by
      unfold inputStep; rw [c1, if_pos rfl]
    have e' : inputStep (bareVars Γ i) (s.st i) s.inp =
        (.ret (), (s.inp.extract (Γ i).opd.base id (s.st i)).1, (s.inp.extract (Γ i).opd.base id (s.st i)).2) := by
      unfold inputStep
      rw [show (bareVars Γ i).isSafe = false from rfl, if_neg (by simp),
        show isCharTy (bareVars Γ i).opd.base = false by
          show isCharTy (Γ i).opd.base = false; unfold isCharTy; simpa using c2, if_neg (by simp)]
      rfl
    rw [e] at h
    rw [e', ← input_bare hp (hΓ i).1.1 c2 (s.st i) s.inp (congrArg Prod.fst h)]
    exact h
  | f + 1, .output e, s, s', hc, hb, hs, h, _ => by
    simp only [LStmt.exec, bareS] at h ⊢
    rcases ty_st Γ e with ⟨A, ea⟩ | ea
    · rw [ea, ret_bind] at h
      rcases eval_good hN hΓ hs e hc.1 with ⟨A', x, ea', wA, vx, hx, mx⟩ | ⟨x, ex⟩ | ex
      · rw [ea] at ea'; obtain rfl := Out.ret.inj ea'
        rw [vx, ret_bind] at h
        have e1 : outputStep A x = .ret (printInt x) := output_good wA (hc.2 A ea) hx
        obtain ⟨B, hB, hp⟩ := ty_bare hn e ea
        have e2 : outputStep (PTy.builtin B : PTy N) x = .ret (printInt x) := by
          have : isCharTy B = false := by
            have h0 := hb.2 A ea
            have h1 := promote_lg A.opd.base
            unfold isCharTy
            rcases hp with rfl | rfl <;> simp <;> omega
          unfold outputStep
          rw [builtin_not_safe, if_neg (by simp), show (PTy.builtin B : PTy N).opd.base = B from rfl, this, if_neg (by simp)]
        rw [e1] at h
        rw [hB, eval_bare hN hn hΓ hs e hc.1 hb.1 vx]
        simp only [ret_bind]
        rw [e2]; exact h
      · rw [ex] at h; cases h
      · rw [ex] at h; cases h
    · rw [ea] at h; cases h
  | f + 1, .seq a b, s, s', hc, hb, hs, h, hk => by
    simp only [LStmt.exec, bareS] at h ⊢
    rcases ha : a.exec Γ f s with _ | ⟨o1, s1⟩ <;> rw [ha] at h
    · cases h
    · obtain ⟨k1, k2, k3, _⟩ := exec_fine hN hΓ f a s o1 s1 hc.1 hs ha
      rcases k1 with rfl | ⟨x, rfl⟩ | rfl
      · dsimp only at h
        obtain ⟨_, _, g3, _⟩ := exec_fine hN hΓ f b s1 _ s' hc.2 k2 h
        rw [exec_bare hN hn hΓ f a s s1 hc.1 hb.1 hs ha (by omega)]
        exact exec_bare hN hn hΓ f b s1 s' hc.2 hb.2 k2 h (by omega)
      · cases h
      · cases h
  | f + 1, .ite c a b, s, s', hc, hb, hs, h, hk => by
    simp only [LStmt.exec, bareS] at h ⊢
    rcases cond_good hN hΓ hs c hc.1 with ⟨x, h1, h2⟩ | ⟨x, h1⟩ | h1 <;> rw [h1] at h
    · rw [cond_bare hN hn hΓ hs c hc.1 hb.1 h1]
      cases x
      · exact exec_bare hN hn hΓ f b s s' hc.2.2 hb.2.2 hs h hk
      · exact exec_bare hN hn hΓ f a s s' hc.2.1 hb.2.1 hs h hk
    · cases h
    · cases h
  | f + 1, .while c a, s, s', hc, hb, hs, h, hk => by
    simp only [LStmt.exec, bareS] at h ⊢
    rcases cond_good hN hΓ hs c hc.1 with ⟨x, h1, h2⟩ | ⟨x, h1⟩ | h1 <;> rw [h1] at h
    · rw [cond_bare hN hn hΓ hs c hc.1 hb.1 h1]
      cases x
      · exact h
      · dsimp only at h ⊢
        rcases ha : a.exec Γ f s with _ | ⟨o1, s1⟩ <;> rw [ha] at h
        · cases h
        · obtain ⟨k1, k2, k3, _⟩ := exec_fine hN hΓ f a s o1 s1 hc.2 hs ha
          rcases k1 with rfl | ⟨x, rfl⟩ | rfl
          · dsimp only at h
            obtain ⟨_, _, g3, _⟩ := exec_fine hN hΓ f (.while c a) s1 _ s' hc k2 h
            rw [exec_bare hN hn hΓ f a s s1 hc.2 hb.2 hs ha (by omega)]
            exact exec_bare hN hn hΓ f (.while c a) s1 s' hc hb k2 h (by omega)
          · cases h
          · cases h
    · cases h
    · cases h
  | f + 1, .tryCatch a b, s, s', hc, hb, hs, h, hk => by
    simp only [LStmt.exec, bareS] at h ⊢
    rcases ha : a.exec Γ f s with _ | ⟨o1, s1⟩ <;> rw [ha] at h
    · cases h
    · obtain ⟨k1, k2, k3, _⟩ := exec_fine hN hΓ f a s o1 s1 hc.1 hs ha
      rcases k1 with rfl | ⟨x, rfl⟩ | rfl
      · cases h
        rw [exec_bare hN hn hΓ f a s s' hc.1 hb.1 hs ha hk]
      · dsimp only at h
        obtain ⟨_, _, g3, _⟩ := exec_fine hN hΓ f b { s1 with caught := s1.caught + 1 } _ s' hc.2 k2 h
        have g3 : s1.caught + 1 ≤ s'.caught := g3
        omega
      · cases h

end
end Verif
