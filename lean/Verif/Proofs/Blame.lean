import Verif.BlameSpec
import Verif.Proofs.Bare
import Verif.Props.Lang
import Verif.Props.Exact2
import Verif.Props.Input
import Verif.Proofs.Release

/-!
Lemmas for Props/Blame: executions whose operations are all clean.
-/

namespace Verif.Lang
open Spec Props
section
variable [Arch]

theorem keeps_good {pp : PP} {p : EP} {T U : Opd} {o : Op2} {t u v : Int} (hk : Keeps pp p T U o t u)
    (hv : o.safeVal pp p T U t u = .ret v) (hm : imath o t u = some v) (hty : ∃ S, o.safeTy pp T U = .ret S ∧ S.kind = .safe) :
    Good (o.safeTy pp T U) (o.safeVal pp p T U t u) (imath o t u) := by
  obtain ⟨S, h1, h2⟩ := hty
  obtain ⟨h3, h4⟩ := hk S v v h1 hv hm
  exact Or.inl ⟨S, v, h1, h3, h2, hv, h4, hm⟩

theorem imath_bit {b : Bitwise} {t u : Int} : ∃ w, imath (.bit b) t u = some w ∧ ∀ i, bit w i = logic b (bit t i) (bit u i) := by
  cases b
  all_goals
    refine ⟨_, rfl, fun i => ?_⟩
    rw [bit_testBit, bit_testBit, bit_testBit]
    simp [logic, Int.testBit_lor, Int.testBit_land, Int.testBit_lxor]

theorem in_eq {R : ITy} {v w : Int} (hv : R.In v) (hw : R.In w) (h : ∀ i < R.bits, bit v i = bit w i) : v = w := by
  apply bit_ext
  intro i
  have hb := R.bits_pos
  rw [bit_in hv, bit_in hw]
  split
  · rename_i hi; exact h i hi
  · rw [h _ (by omega)]

/-- a policy that traps rejects an operator or does what one does that throws -/
theorem as_throw (pp : PP) {p : EP} (ha : Firm p.ae) (o : Op2) (T U : Opd) (t u : Int) : ∃ p' : EP, p'.ae = .throw ∧
    (o.safeVal pp p T U t u = o.safeVal pp p' T U t u ∨ o.safeVal pp p T U t u = .fault .illFormed) := by
  refine ⟨{ p with ae := .throw }, rfl, Release.rel_op (fun e => ?_) pp o T U t u⟩
  unfold dispatch
  rcases ha with h | h
  · cases p; subst h; exact Or.inl rfl
  · cases makeAction e
    all_goals first | exact Or.inl rfl | (right; show Act.run p.ae e = _; rw [h]; rfl)

theorem as_throws (pp : PP) {p : EP} (ha : Firm p.ae) (hi : Firm p.idb) (o : Op2) (T U : Opd) (t u : Int) :
    ∃ p' : EP, p'.ae = .throw ∧ p'.idb = .throw ∧
    (o.safeVal pp p T U t u = o.safeVal pp p' T U t u ∨ o.safeVal pp p T U t u = .fault .illFormed) := by
  refine ⟨{ p with ae := .throw, idb := .throw }, rfl, rfl, Release.rel_op (fun e => ?_) pp o T U t u⟩
  unfold dispatch
  have r1 : Act.run p.ae e = Act.run .throw e ∨ Act.run p.ae e = .fault .illFormed := by
    rcases ha with h | h <;> rw [h]
    · exact Or.inl rfl
    · exact Or.inr rfl
  have r2 : Act.run p.idb e = Act.run .throw e ∨ Act.run p.idb e = .fault .illFormed := by
    rcases hi with h | h <;> rw [h]
    · exact Or.inl rfl
    · exact Or.inr rfl
  cases makeAction e
  all_goals first | exact Or.inl rfl | exact r1 | exact r2

theorem keeps_eq {pp : PP} {p p' : EP} {o : Op2} {T U : Opd} {t u : Int} (e : o.safeVal pp p T U t u = o.safeVal pp p' T U t u)
    (h : Keeps pp p T U o t u) : Keeps pp p' T U o t u := fun S v w h1 h2 h3 => h S v w h1 (e.trans h2) h3

theorem op_clean {pp : PP} (hpp : pp.Wf) {p : EP} (hp : p.ae = .throw ∨ p.ae = .trap) {o : Op2} {T U : Opd} (hT : T.Wf)
    (hU : U.Wf) {t u : Int} (hc : OpClean pp p T U o t u) (ht : T.Has t) (hu : U.Has u) :
    Good (o.safeTy pp T U) (o.safeVal pp p T U t u) (imath o t u) := by
  rcases hc with hc | ⟨hk, hc⟩
  · exact op_good hpp hp hT hU hc ht hu
  cases o with
  | ar a =>
    cases a with
    | add => exact hc.elim
    | sub => exact hc.elim
    | mul => exact hc.elim
    | div =>
      obtain ⟨ha, hc⟩ := hc
      obtain ⟨p, hp, e | e⟩ := as_throw pp ha (.ar .div) T U t u
      swap
      · exact Or.inr (Or.inr e)
      replace hk := keeps_eq e hk
      rw [e]
      rcases PP.result_total hpp (op := .div) (by decide) hT hU with ⟨R, e, hR⟩ | e
      · rcases (C76_div pp hpp p hp T U hT hU R e t u ht hu).2 (hc R e) with ⟨h, h0⟩ | h | h
        · exact keeps_good hk h (by simp [imath, h0]) (div_type e hT hU)
        · exact Or.inr (Or.inl h)
        · exact Or.inr (Or.inr h)
      · right; right
        show arith pp p .div T U t u = _
        unfold arith
        rw [show Arith.div.binOp = .div from rfl, e]; rfl
    | mod =>
      obtain ⟨ha, hc⟩ := hc
      obtain ⟨p, hp, e | e⟩ := as_throw pp ha (.ar .mod) T U t u
      swap
      · exact Or.inr (Or.inr e)
      replace hk := keeps_eq e hk
      rw [e]
      rcases PP.result_total hpp (op := .mod) (by decide) hT hU with ⟨R, e, hR⟩ | e
      · rcases (C76_rem pp hpp p hp T U hT hU R e t u ht hu).2 (hc R e) with ⟨h, h0⟩ | h | h
        · exact keeps_good hk h (by simp [imath, h0]) (mod_type e hT hU)
        · exact Or.inr (Or.inl h)
        · exact Or.inr (Or.inr h)
      · right; right
        show arith pp p .mod T U t u = _
        unfold arith
        rw [show Arith.mod.binOp = .mod from rfl, e]; rfl
  | bit b =>
    rcases PP.result_total hpp (op := b.binOp) (by cases b <;> decide) hT hU with ⟨R, e, hR⟩ | e
    swap
    · right; right
      show bitwise pp b T U t u = _
      unfold bitwise
      rw [e]; rfl
    have hx := C78_compiles pp b T U _ hR e t u
    by_cases h : ∃ v, bitwise pp b T U t u = .ret v
    · obtain ⟨v, hv⟩ := h
      obtain ⟨S, hS⟩ := hx.2.2 (hx.1.1 ⟨v, hv⟩)
      obtain ⟨w, hw, hb⟩ := imath_bit (b := b) (t := t) (u := u)
      obtain ⟨iv, lv⟩ := C27_bits pp b T U t u v R e hv
      obtain ⟨kw, kh⟩ := hk S w v hS hv hw
      have hS' := hS
      unfold bitwiseTy bitTy at hS
      rw [e, ret_bind] at hS
      dsimp only at hS
      rcases Static.static (roundOut R.toUnsigned (b.pick (conv R.toUnsigned T.hi) (conv R.toUnsigned U.hi))) with ⟨m, g⟩ | g
      · rw [g, ret_bind] at hS
        split at hS
        · cases hS
          have iw : R.In w := kw.has_in kh
          obtain rfl : v = w := in_eq iv iw fun i hi => by rw [lv i hi, hb i]
          exact keeps_good hk hv hw ⟨_, hS', rfl⟩
        · cases hS
      · rw [g] at hS; cases hS
    · have : bitwise pp b T U t u = .fault .illFormed := by
        rcases bitTy_st b.pick R T U with ⟨S, g⟩ | g
        · exact absurd (hx.1.2 (hx.2.1 ⟨S, by unfold bitwiseTy; rw [e, ret_bind]; exact g⟩)) h
        · unfold bitwise
          rw [e, ret_bind]
          cases b
          · show runOr _ T U t u = _
            unfold runOr; rw [show bitTy pickMax _ T U = _ from g]; rfl
          · show runAnd _ T U t u = _
            unfold runAnd; rw [show bitTy pickMin _ T U = _ from g]; rfl
          · show runXor _ T U t u = _
            unfold runXor; rw [show bitTy pickMax _ T U = _ from g]; rfl
      exact Or.inr (Or.inr this)
  | shl =>
    obtain ⟨ha, hb, hc⟩ := hc
    obtain ⟨p, hp, hi, e | e⟩ := as_throws pp ha hb .shl T U t u
    swap
    · exact Or.inr (Or.inr e)
    replace hk := keeps_eq e hk
    rw [e]
    rcases PP.result_shift hpp (op := .shl) (by decide) hT hU with ⟨R, e, _⟩ | e
    swap
    · refine Or.inr (Or.inr ?_)
      show shl pp p T U t u = _
      unfold shl
      rw [e]; rfl
    rcases (C76_left pp hpp p hp hi T U hT hU R e t u ht hu).2 (hc R e) with ⟨h, h0⟩ | h | h
    · refine keeps_good hk h (by simp [imath, h0]) ?_
      rcases resItv_st itvShl R T U with ⟨ri, g⟩ | g
      · refine ⟨Opd.range R (retItv R ri).l (retItv R ri).u, ?_, rfl⟩
        show shlTy pp T U = _
        unfold shlTy resTy
        rw [e, ret_bind, g, ret_bind]
      · unfold shl runOp at h
        rw [e, ret_bind, show resItv opShl.itv _ T U = _ from g] at h
        cases h
    · exact Or.inr (Or.inl h)
    · exact Or.inr (Or.inr h)
  | shr =>
    obtain ⟨ha, hb, hc⟩ := hc
    obtain ⟨p, hp, hi, e | e⟩ := as_throws pp ha hb .shr T U t u
    swap
    · exact Or.inr (Or.inr e)
    replace hk := keeps_eq e hk
    rw [e]
    rcases PP.result_shift hpp (op := .shr) (by decide) hT hU with ⟨R, e, _⟩ | e
    swap
    · refine Or.inr (Or.inr ?_)
      show shr pp p T U t u = _
      unfold shr
      rw [e]; rfl
    rcases (C76_right pp hpp p hp hi T U hT hU R e t u ht hu).2 (hc R e) with ⟨h, h0, h1⟩ | h | h
    · refine keeps_good hk h (by simp [imath, h0, h1]) ?_
      rcases resItv_st itvShr R T U with ⟨ri, g⟩ | g
      · refine ⟨Opd.range R (retItv R ri).l (retItv R ri).u, ?_, rfl⟩
        show shrTy pp T U = _
        unfold shrTy resTy
        rw [e, ret_bind, g, ret_bind]
      · unfold shr runShr at h
        rw [e, ret_bind, g] at h
        cases h
    · exact Or.inr (Or.inl h)
    · exact Or.inr (Or.inr h)


theorem cTy_ok {o : Op2} {B C : ITy} (hB : B.Ok) (hC : C.Ok) : (o.cTy B C).Ok := by
  cases o with
  | ar a => exact uac_ok hB hC
  | bit a => exact uac_ok hB hC
  | shl => exact promote_ok hB
  | shr => exact promote_ok hB

/-- a clean built-in operator is exact -/
theorem bare_clean {o : Op2} {B C : ITy} {t u : Int} (hu : C.In u) (h : BareClean o B C t u) :
    ∃ v, o.cVal B C t u = .ret v ∧ imath o t u = some v ∧ (o.cTy B C).In v := by
  obtain ⟨it, iu, ⟨v, hm, iv⟩, hq, hs⟩ := h
  refine ⟨v, ?_, hm, iv⟩
  cases o with
  | ar a =>
    have iu := iu nofun nofun
    cases a with
    | add => cases hm; exact cAdd_eq it iu iv
    | sub => cases hm; exact cSub_eq it iu iv
    | mul => cases hm; exact cMul_eq it iu iv
    | div =>
      simp only [imath] at hm
      split at hm
      · cases hm
      · rename_i h0
        cases hm
        exact cDiv_eq it iu h0 iv
    | mod =>
      simp only [imath] at hm
      split at hm
      · cases hm
      · rename_i h0
        cases hm
        exact cMod_eq it iu h0 fun _ => hq rfl
  | bit b =>
    have iu := iu nofun nofun
    have key := cBit_bits (o := b) it iu
    cases b
    all_goals
      simp only [imath] at hm
      cases hm
      show Out.ret _ = Out.ret _
      congr 1
      apply bit_ext
      intro i
      refine (key i).trans ?_
      rw [bit_testBit, bit_testBit, bit_testBit]
      simp [logic, Int.testBit_lor, Int.testBit_land, Int.testBit_lxor]
  | shl =>
    obtain ⟨h1, h0⟩ := hs (Or.inl rfl)
    simp only [imath] at hm
    split at hm
    · rename_i hz
      cases hm
      have it : (promote B).In t := it
      have iv : (promote B).In (t * 2 ^ u.toNat) := iv
      have h1 : u < (promote B).bits := h1
      show cShl B C t u = _
      unfold cShl
      dsimp only
      rw [conv_of_in it, conv_of_in (in_promote hu), if_neg (by omega), conv_of_in iv]
      have : 0 ≤ t * 2 ^ u.toNat := Int.mul_nonneg h0 (by positivity)
      split
      · rw [if_neg (by omega), if_pos (in_toUnsigned this iv)]
      · rfl
    · cases hm
  | shr =>
    obtain ⟨h1, h0⟩ := hs (Or.inr rfl)
    simp only [imath] at hm
    split at hm
    · rename_i hz
      cases hm
      have it : (promote B).In t := it
      have h1 : u < (promote B).bits := h1
      show cShr B C t u = _
      unfold cShr
      dsimp only
      rw [conv_of_in it, conv_of_in (in_promote hu), if_neg (by omega)]
    · cases hm

theorem pbin_clean {N : Names} (hN : Careful N) {o : Op2} {T U : PTy N} (hT : PTy.Wf T) (hU : PTy.Wf U) {t u : Int}
    (hc : (Event.bin o T U t u).Clean) (ht : T.opd.Has t) (hu : U.opd.Has u) :
    PGood (pBinTy o T U) (pBinVal o T U t u) (imath o t u) := by
  obtain ⟨hc1, hc2⟩ := hc
  unfold pBinTy pBinVal
  rcases hs : (T.isSafe || U.isSafe) with _ | _
  · simp only [Bool.false_eq_true, if_false]
    obtain ⟨v, h1, h2, h3⟩ := bare_clean (hU.1.has_in hu) (hc2 hs)
    exact Or.inl ⟨_, v, rfl, pbuiltin_wf (cTy_ok hT.1.1 hU.1.1), h1, h3, h2⟩
  rw [if_pos rfl, if_pos rfl]
  rcases common_st T.pr U.pr with ⟨q, eq⟩ | eq
  · rcases common_st T.ex U.ex with ⟨e, ee⟩ | ee
    · rw [eq, ee]
      simp only [ret_bind]
      rcases op_clean (hN.2 q) (hN.1 e) hT.1 hU.1 (hc1 hs q e eq ee) ht hu with ⟨S, v, h1, h2, h3, h4, h5, h6⟩ | h | h
      · refine Or.inl ⟨⟨S, some q, some e⟩, v, ?_, ⟨h2, ?_, ?_, ?_⟩, h4, h5, h6⟩
        · rw [h1]; rfl
        · intro h; simp [h3] at h
        · simp
        · intro b h; simp [h3] at h
      · exact Or.inr (Or.inl h)
      · exact Or.inr (Or.inr h)
    · rw [eq, ee]; exact Or.inr (Or.inr rfl)
  · rw [eq]; exact Or.inr (Or.inr rfl)

omit [Arch] in
theorem safe_or_builtin {N : Names} (T : PTy N) : T.isSafe = true ∨ (T.isSafe = false ∧ T.opd.kind = .builtin) := by
  unfold PTy.isSafe
  cases T.opd.kind <;> simp

theorem conv_clean {N : Names} (hN : Careful N) {S T : PTy N} (hS : PTy.Wf S) (hl : NotLit S.opd) (hT : PTy.Wf T) {t : Int}
    (hc : (Event.conv S T t).Clean) (ht : T.opd.Has t) :
    (convTo S T t = .ret t ∧ S.opd.Has t) ∨ (∃ e, convTo S T t = .thrown e) ∨ convTo S T t = .fault .illFormed := by
  rcases safe_or_builtin S with h1 | ⟨h1, k1⟩
  · exact conv_good hN hT ⟨hS, hl, Or.inl h1⟩ ht
  rcases safe_or_builtin T with h2 | ⟨h2, k2⟩
  · exact conv_good hN hT ⟨hS, hl, Or.inr (Or.inl h2)⟩ ht
  have hin := hc h1 h2
  left
  unfold convTo
  rw [k1, k2]
  dsimp only
  rw [conv_of_in hin]
  have hb := hS.1.2.2.2.2.1 k1
  exact ⟨rfl, by rw [hb.1]; exact hin.1, by rw [hb.2]; exact hin.2⟩

theorem neg_clean {N : Names} (hN : Careful N) {T : PTy N} (hT : PTy.Wf T) {t : Int} (hc : (Event.neg T t).Clean)
    (ht : T.opd.Has t) : PGood (negTyOf T) (negValOf T t) (some (-t)) := by
  rcases safe_or_builtin T with h1 | ⟨h1, k1⟩
  · exact neg_good hN hT h1 ht
  have hin := hc h1
  unfold negTyOf negValOf
  rw [k1]
  exact Or.inl ⟨_, -t, rfl, pbuiltin_wf (promote_ok hT.1.1), cNeg_eq (in_promote (hT.1.has_in ht)) hin, hin, rfl⟩

theorem compare_clean {N : Names} (hN : Careful N) {o : Rel} {T U : PTy N} (hT : PTy.Wf T) (hU : PTy.Wf U)
    {t u : Int} (hc : (Event.cmp o T U t u).Clean) (ht : T.opd.Has t) (hu : U.opd.Has u) :
    ExactOrThrows (pCompare o T U t u) (rel o t u) := by
  by_cases hs : T.isSafe = true ∨ U.isSafe = true
  · exact compare_good hN hT hU (Or.inl hs) ht hu
  · obtain ⟨h1, h2⟩ := hc (isSafe_not hs)
    left
    unfold pCompare
    rw [isSafe_not hs, if_neg (by decide), cRel_in h1 h2]

/-! ### expressions and conditions -/

theorem clean_after {N : Names} {α : Type} {x : Out α} {f : α → List (Event N)} {a : α} (hx : x = .ret a)
    (h : ∀ ev ∈ after x f, ev.Clean) : ∀ ev ∈ f a, ev.Clean := by
  rw [hx] at h; exact h

theorem clean_left {N : Names} {l m : List (Event N)} (h : ∀ ev ∈ l ++ m, ev.Clean) : ∀ ev ∈ l, ev.Clean :=
  fun ev he => h ev (List.mem_append_left _ he)

theorem clean_right {N : Names} {l m : List (Event N)} (h : ∀ ev ∈ l ++ m, ev.Clean) : ∀ ev ∈ m, ev.Clean :=
  fun ev he => h ev (List.mem_append_right _ he)

theorem clean_one {N : Names} {e : Event N} (h : ∀ ev ∈ [e], ev.Clean) : e.Clean := h e List.mem_cons_self

theorem clean_tail {N : Names} {e : Event N} {l : List (Event N)} (h : ∀ ev ∈ e :: l, ev.Clean) : ∀ ev ∈ l, ev.Clean :=
  fun ev he => h ev (List.mem_cons_of_mem _ he)

theorem clean_after1 {N : Names} {α : Type} {x : Out α} {f : α → Event N} {a : α} (hx : x = .ret a)
    (h : ∀ ev ∈ after x fun a => [f a], ev.Clean) : (f a).Clean := by
  rw [hx] at h; exact h _ List.mem_cons_self

theorem eval_clean {N : Names} (hN : Careful N) {n : Nat} {Γ : Fin n → PTy N} (hΓ : GoodVars Γ) {s : Fin n → Int}
    (hs : Ranged Γ s) : ∀ e : LExpr N n, EProper e → (∀ ev ∈ eEvents Γ s e, ev.Clean) → PGood (e.ty Γ) (e.eval Γ s) (ival s e)
  | .var i, _, _ => Or.inl ⟨Γ i, s i, rfl, (hΓ i).1, rfl, hs i, rfl⟩
  | .const B k, h, _ => Or.inl ⟨_, k, rfl, pbuiltin_wf h.1, rfl, h.2, rfl⟩
  | .lit L, h, _ => Or.inl ⟨L, L.opd.lo, rfl, h.1, rfl, ⟨le_refl _, h.1.1.2.2.2.1⟩, rfl⟩
  | .pos a, hw, h => by
    simp only [LExpr.eval, LExpr.ty, ival]
    rcases eval_clean hN hΓ hs a hw h with ⟨T, v, h1, h2, h3, h4, h5⟩ | h | h
    · rw [h1]
      obtain ⟨g1, g2⟩ := pos_good h2 h4
      exact Or.inl ⟨_, v, rfl, g1, h3, g2, h5⟩
    · exact Or.inr (Or.inl h)
    · exact Or.inr (Or.inr h)
  | .cast S a, hw, h => by
    simp only [eEvents] at h
    simp only [LExpr.eval, LExpr.ty, ival]
    rcases ty_st Γ a with ⟨A, ea⟩ | ea
    · have h := clean_after ea h
      rw [ea, ret_bind]
      rcases eval_clean hN hΓ hs a hw.1 (clean_left h) with ⟨A', x, ea', wA, vx, hx, mx⟩ | ⟨x, ex⟩ | ex
      · rw [ea] at ea'; obtain rfl := Out.ret.inj ea'
        rw [vx, ret_bind]
        rcases conv_clean hN hw.2.1 hw.2.2 wA (clean_after1 vx (clean_right h)) hx with ⟨h1, h2⟩ | h | h
        · exact Or.inl ⟨S, x, rfl, hw.2.1, h1, h2, mx⟩
        · exact Or.inr (Or.inl h)
        · exact Or.inr (Or.inr h)
      · rw [ex]; exact Or.inr (Or.inl ⟨x, rfl⟩)
      · rw [ex]; exact Or.inr (Or.inr rfl)
    · rw [ea]; exact Or.inr (Or.inr rfl)
  | .neg a, hw, h => by
    simp only [eEvents] at h
    simp only [LExpr.eval, LExpr.ty, ival]
    rcases ty_st Γ a with ⟨A, ea⟩ | ea
    · have h := clean_after ea h
      rw [ea, ret_bind]
      rcases eval_clean hN hΓ hs a hw (clean_left h) with ⟨A', x, ea', wA, vx, hx, mx⟩ | ⟨x, ex⟩ | ex
      · rw [ea] at ea'; obtain rfl := Out.ret.inj ea'
        rw [vx, ret_bind, mx]
        exact neg_clean hN wA (clean_after1 vx (clean_right h)) hx
      · rw [ex]; exact Or.inr (Or.inl ⟨x, rfl⟩)
      · rw [ex]; exact Or.inr (Or.inr rfl)
    · rw [ea]; exact Or.inr (Or.inr rfl)
  | .bin o a b, hw, h => by
    simp only [eEvents] at h
    simp only [LExpr.eval, LExpr.ty, ival]
    rcases ty_st Γ a with ⟨A, ea⟩ | ea
    · have h := clean_after ea h
      rcases ty_st Γ b with ⟨B, eb⟩ | eb
      · have h := clean_after eb h
        rw [ea, eb]
        simp only [ret_bind]
        rcases eval_clean hN hΓ hs a hw.1 (clean_left h) with ⟨A', x, ea', wA, vx, hx, mx⟩ | ⟨x, ex⟩ | ex
        · rw [ea] at ea'; obtain rfl := Out.ret.inj ea'
          have h := clean_after vx (clean_right h)
          rcases eval_clean hN hΓ hs b hw.2 (clean_left h) with ⟨B', y, eb', wB, vy, hy, my⟩ | ⟨y, ey⟩ | ey
          · rw [eb] at eb'; obtain rfl := Out.ret.inj eb'
            rw [vx, vy, mx, my]
            exact pbin_clean hN wA wB (clean_after1 vy (clean_right h)) hx hy
          · rw [vx, ey]; exact Or.inr (Or.inl ⟨y, rfl⟩)
          · rw [vx, ey]; exact Or.inr (Or.inr rfl)
        · rw [ex]; exact Or.inr (Or.inl ⟨x, rfl⟩)
        · rw [ex]; exact Or.inr (Or.inr rfl)
      · rw [ea, eb]; exact Or.inr (Or.inr rfl)
    · rw [ea]; exact Or.inr (Or.inr rfl)

theorem cond_clean {N : Names} (hN : Careful N) {n : Nat} {Γ : Fin n → PTy N} (hΓ : GoodVars Γ) {s : Fin n → Int}
    (hs : Ranged Γ s) : ∀ c : LCond N n, CProper c → (∀ ev ∈ cEvents Γ s c, ev.Clean) →
      (∃ b, c.eval Γ s = .ret b ∧ icond s c = some b) ∨ (∃ e, c.eval Γ s = .thrown e) ∨ c.eval Γ s = .fault .illFormed
  | .cmp o a b, hw, h => by
    simp only [cEvents] at h
    simp only [LCond.eval, icond]
    rcases ty_st Γ a with ⟨A, ea⟩ | ea
    · have h := clean_after ea h
      rcases ty_st Γ b with ⟨B, eb⟩ | eb
      · have h := clean_after eb h
        rw [ea, eb]
        simp only [ret_bind]
        rcases eval_clean hN hΓ hs a hw.1 (clean_left h) with ⟨A', x, ea', wA, vx, hx, mx⟩ | ⟨x, ex⟩ | ex
        · rw [ea] at ea'; obtain rfl := Out.ret.inj ea'
          have h := clean_after vx (clean_right h)
          rcases eval_clean hN hΓ hs b hw.2 (clean_left h) with ⟨B', y, eb', wB, vy, hy, my⟩ | ⟨y, ey⟩ | ey
          · rw [eb] at eb'; obtain rfl := Out.ret.inj eb'
            rw [vx, vy, mx, my]
            rcases compare_clean hN (o := o) wA wB (clean_after1 vy (clean_right h)) hx hy with h | h | h
            · exact Or.inl ⟨_, h, rfl⟩
            · exact Or.inr (Or.inl h)
            · exact Or.inr (Or.inr h)
          · rw [vx, ey]; exact Or.inr (Or.inl ⟨y, rfl⟩)
          · rw [vx, ey]; exact Or.inr (Or.inr rfl)
        · rw [ex]; exact Or.inr (Or.inl ⟨x, rfl⟩)
        · rw [ex]; exact Or.inr (Or.inr rfl)
      · rw [ea, eb]; exact Or.inr (Or.inr rfl)
    · rw [ea]; exact Or.inr (Or.inr rfl)
  | .truth a, hw, h => by
    simp only [cEvents] at h
    simp only [LCond.eval, icond]
    rcases ty_st Γ a with ⟨A, ea⟩ | ea
    swap
    · rw [ea]; exact Or.inr (Or.inr rfl)
    have h := clean_after ea h
    rcases eval_clean hN hΓ hs a hw (clean_left h) with ⟨A, x, ea, wA, vx, hx, mx⟩ | ⟨x, ex⟩ | ex
    · rw [ea, vx, mx]
      simp only [ret_bind]
      rcases truth_good hN wA hx with h | h | h
      · exact Or.inl ⟨_, h, rfl⟩
      · exact Or.inr (Or.inl h)
      · exact Or.inr (Or.inr h)
    · rcases ty_st Γ a with ⟨A, ea⟩ | ea <;> rw [ea]
      · rw [ex]; exact Or.inr (Or.inl ⟨x, rfl⟩)
      · exact Or.inr (Or.inr rfl)
    · rcases ty_st Γ a with ⟨A, ea⟩ | ea <;> rw [ea]
      · rw [ex]; exact Or.inr (Or.inr rfl)
      · exact Or.inr (Or.inr rfl)
  | .not a, hw, h => by
    simp only [LCond.eval, icond]
    rcases cond_clean hN hΓ hs a hw h with ⟨b, h1, h2⟩ | ⟨e, h⟩ | h
    · rw [h1, h2]; exact Or.inl ⟨_, rfl, rfl⟩
    · rw [h]; exact Or.inr (Or.inl ⟨e, rfl⟩)
    · rw [h]; exact Or.inr (Or.inr rfl)
  | .and a b, hw, h => by
    simp only [cEvents] at h
    simp only [LCond.eval, icond]
    rcases cond_clean hN hΓ hs a hw.1 (clean_left h) with ⟨x, h1, h2⟩ | ⟨e, h⟩ | h
    · have h := clean_after h1 (clean_right h)
      rw [h1, h2]
      cases x
      · exact Or.inl ⟨false, rfl, rfl⟩
      · exact cond_clean hN hΓ hs b hw.2 h
    · rw [h]; exact Or.inr (Or.inl ⟨e, rfl⟩)
    · rw [h]; exact Or.inr (Or.inr rfl)
  | .or a b, hw, h => by
    simp only [cEvents] at h
    simp only [LCond.eval, icond]
    rcases cond_clean hN hΓ hs a hw.1 (clean_left h) with ⟨x, h1, h2⟩ | ⟨e, h⟩ | h
    · have h := clean_after h1 (clean_right h)
      rw [h1, h2]
      cases x
      · exact cond_clean hN hΓ hs b hw.2 h
      · exact Or.inl ⟨true, rfl, rfl⟩
    · rw [h]; exact Or.inr (Or.inl ⟨e, rfl⟩)
    · rw [h]; exact Or.inr (Or.inr rfl)

/-! ### statements -/

theorem assign_clean {N : Names} (hN : Careful N) {n : Nat} {Γ : Fin n → PTy N} (hΓ : GoodVars Γ) {s : Fin n → Int}
    (hs : Ranged Γ s) {i : Fin n} {e : LExpr N n} (hw : EProper e)
    (h : ∀ ev ∈ after (e.ty Γ) fun T => eEvents Γ s e ++ after (e.eval Γ s) fun v => [Event.conv (Γ i) T v], ev.Clean) :
    (∃ v, assignVal Γ s i e = .ret v ∧ (Γ i).opd.Has v ∧ ival s e = some v) ∨ (∃ x, assignVal Γ s i e = .thrown x) ∨
    assignVal Γ s i e = .fault .illFormed := by
  unfold assignVal
  rcases ty_st Γ e with ⟨A, ea⟩ | ea
  · have h := clean_after ea h
    rw [ea, ret_bind]
    rcases eval_clean hN hΓ hs e hw (clean_left h) with ⟨A', x, ea', wA, vx, hx, mx⟩ | ⟨x, ex⟩ | ex
    · rw [ea] at ea'; obtain rfl := Out.ret.inj ea'
      rw [vx, ret_bind]
      rcases conv_clean hN (hΓ i).1 (hΓ i).2 wA (clean_after1 vx (clean_right h)) hx with ⟨h1, h2⟩ | h | h
      · exact Or.inl ⟨x, h1, h2, mx⟩
      · exact Or.inr (Or.inl h)
      · exact Or.inr (Or.inr h)
    · rw [ex]; exact Or.inr (Or.inl ⟨x, rfl⟩)
    · rw [ex]; exact Or.inr (Or.inr rfl)
  · rw [ea]; exact Or.inr (Or.inr rfl)

theorem opAssign_clean {N : Names} (hN : Careful N) {n : Nat} {Γ : Fin n → PTy N} (hΓ : GoodVars Γ) {s : Fin n → Int}
    (hs : Ranged Γ s) {o : Op2} {i : Fin n} {e : LExpr N n} (hw : EProper e) (h : ∀ ev ∈ opEvents Γ s o i e, ev.Clean) :
    (∃ v, opAssignVal Γ s o i e = .ret v ∧ (Γ i).opd.Has v ∧ (do imath o (s i) (← ival s e)) = some v) ∨
    (∃ x, opAssignVal Γ s o i e = .thrown x) ∨ opAssignVal Γ s o i e = .fault .illFormed := by
  unfold opAssignVal
  unfold opEvents at h
  rcases ty_st Γ e with ⟨A, ea⟩ | ea
  · have h := clean_after ea h
    rw [ea, ret_bind]
    rcases eval_clean hN hΓ hs e hw (clean_left h) with ⟨A', x, ea', wA, vx, hx, mx⟩ | ⟨x, ex⟩ | ex
    · rw [ea] at ea'; obtain rfl := Out.ret.inj ea'
      have h := clean_after vx (clean_right h)
      rw [vx, ret_bind, mx]
      rcases pBinTy_st o (Γ i) A with ⟨S, es⟩ | es
      · have h := clean_after es h
        have kb := pbin_clean hN (hΓ i).1 wA (h _ List.mem_cons_self) (hs i) hx
        have h := clean_tail h
        rw [es, ret_bind]
        rcases kb with ⟨S', v, es', wS, hv, hS, hm⟩ | ⟨x, ex⟩ | ex
        · rw [es] at es'; obtain rfl := Out.ret.inj es'
          rw [hv, ret_bind]
          rcases conv_clean hN (hΓ i).1 (hΓ i).2 wS (clean_after1 hv h) hS with ⟨h1, h2⟩ | h | h
          · exact Or.inl ⟨v, h1, h2, hm⟩
          · exact Or.inr (Or.inl h)
          · exact Or.inr (Or.inr h)
        · rw [ex]; exact Or.inr (Or.inl ⟨x, rfl⟩)
        · rw [ex]; exact Or.inr (Or.inr rfl)
      · rw [es]; exact Or.inr (Or.inr rfl)
    · rw [ex]; exact Or.inr (Or.inl ⟨x, rfl⟩)
    · rw [ex]; exact Or.inr (Or.inr rfl)
  · rw [ea]; exact Or.inr (Or.inr rfl)

/-- clean input -/
theorem input_clean {N : Names} (hN : Careful N) {T : PTy N} (hT : PTy.Wf T) (hl : NotLit T.opd) {old : Int} {st : IStream}
    (hc : (Event.input T old st).Clean) (ho : T.opd.Has old) :
    T.opd.Has (inputStep T old st).2.1 ∧
    ((∃ neg n rest, NumberAt st.buf neg n rest ∧ inputStep T old st = (.ret (), n, ⟨rest, rest.isEmpty, false⟩)) ∨
      (∃ e, (inputStep T old st).1 = .thrown e) ∨ (inputStep T old st).1 = .fault .illFormed) := by
  obtain ⟨c1, c2, c3⟩ := hc
  rcases safe_or_builtin T with h1 | ⟨h1, k1⟩
  · refine ⟨c2 h1, ?_⟩
    have hk : T.opd.kind = .safe := hl.resolve_left (by intro h; simp [PTy.isSafe, h] at h1)
    have e : inputStep T old st = Verif.input T.ep T.opd old st := by unfold inputStep; rw [h1, if_pos rfl]
    rw [e]
    rcases ep_careful hN (hT.2.2.1 hk).2 with hp | hp
    · by_cases c0 : T.opd.base.lg = 0
      · obtain ⟨_, e1, e2, neg, k, rest, hk⟩ := c1 c0
        by_cases hi : (Verif.input T.ep T.opd old st).1 = .fault .illFormed
        · exact Or.inr (Or.inr hi)
        · obtain ⟨g1, g2⟩ := (C90_char_outcomes T.ep hp T.opd hT.1 c0 old st hi).2.1 neg k rest e1 e2 hk
          by_cases hh : T.opd.Has k
          · exact Or.inl ⟨neg, k, rest, hk, g1 hh⟩
          · obtain ⟨x, g2⟩ := g2 hh
            exact Or.inr (Or.inl ⟨x, by rw [g2]⟩)
      have c1 : T.opd.base.lg ≠ 0 := c0
      rcases input_throw hp hT.1 c1 old st (hT.1.has_in ho) with h | h | h
      · obtain ⟨neg, n, rest, h1, _, h3, _⟩ := C37_reads_partial T.ep hp T.opd hT.1 c1 old st h
        exact Or.inl ⟨neg, n, rest, h1, h3⟩
      · exact Or.inr (Or.inl h)
      · exact Or.inr (Or.inr h)
    · unfold Verif.input
      rw [inputStatic_trap hp hT.1]
      exact Or.inr (Or.inr rfl)
  · obtain ⟨g1, g2⟩ := c3 h1
    obtain ⟨_, _, neg, n, rest, v, hN', hE, hV, hH⟩ := extract_good g1
    obtain ⟨rfl, hin⟩ := hV fun hs => by
      cases neg
      · rfl
      · exact absurd (hH.2 rfl) (g2 hs)
    have c1 : T.opd.base.lg ≠ 0 := fun h => by rw [(c1 h).1] at h1; cases h1
    have hcc : isCharTy T.opd.base = false := by unfold isCharTy; simpa using c1
    have e : inputStep T old st = (.ret (), v, ⟨rest, rest.isEmpty, false⟩) := by
      unfold inputStep
      rw [h1, hcc, hE]
      rfl
    rw [e]
    have hb := hT.1.2.2.2.2.1 k1
    exact ⟨⟨by rw [hb.1]; exact hin.1, by rw [hb.2]; exact hin.2⟩, Or.inl ⟨neg, v, rest, hN', rfl⟩⟩

end
end Verif.Lang
