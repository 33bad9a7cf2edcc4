import Verif.AutoSpec
import Verif.Proofs.Prom
import Verif.Props.Safe2
import Verif.Props.Types

/-!
Helper lemmas for C102: an operation that fits its type under native promotion also fits the type that automatic promotion chooses.
-/

namespace Verif
open Spec Lang Props

section
variable [Arch]

omit [Arch] in
theorem in_compl {R : ITy} (h : R.signed = true) {x : Int} (hx : R.In (-1 - x)) : R.In x := by
  have h1 := hx.1
  have h2 := hx.2
  unfold ITy.min at h1
  unfold ITy.max at h2
  rw [h] at h1
  simp only [if_true] at h1
  constructor
  · unfold ITy.min; rw [h]; simp only [if_true]; omega
  · unfold ITy.max; omega

theorem mid_in {T : Opd} (wT : T.Wf) (hT : Mid T) {t : Int} (ht : T.Has t) : tIntMax.In t :=
  in_wider (R' := tIntMax) hT.signed rfl wT.1 (wT.has_in ht)

omit [Arch] in
theorem Spec.Mid.has {T : Opd} (hT : Mid T) : T.Has (-1) ∧ T.Has 0 ∧ T.Has 1 := by
  have h1 := hT.low
  have h2 := hT.high
  exact ⟨⟨h1, by omega⟩, ⟨by omega, by omega⟩, ⟨by omega, h2⟩⟩

theorem mid_temp {T U : Opd} (hT : Mid T) : autoTemp T U = tIntMax := by
  unfold autoTemp; rw [if_neg]; rw [hT.signed]; simp

/-- the type in which automatic promotion computes, and the type of the result -/
theorem auto_op {o : Arith} (ho : o = .add ∨ o = .sub ∨ o = .mul) {T U : Opd} (wT : T.Wf) (wU : U.Wf) (hT : Mid T) (hU : Mid U) :
    ∃ R S, PP.automatic.result o.binOp T U = .ret R ∧ arithTy .automatic o T U = .ret S ∧ S.Wf ∧ S.kind = .safe ∧ Mid S ∧
      (∀ x, T.Has x → R.In x) ∧ (∀ y, U.Has y → R.In y) ∧
      ∀ x y, T.Has x → U.Has y → tIntMax.In (math o x y) → R.In (math o x y) ∧ S.Has (math o x y) := by
  obtain ⟨tm, t0, t1⟩ := hT.has
  obtain ⟨um, u0, u1⟩ := hU.has
  -- the type of the result, for any type of the machine that is signed and holds what it should
  have res : ∀ R : ITy, R.Ok → R.signed = true → PP.automatic.result o.binOp T U = .ret R →
      (∀ x y, T.Has x → U.Has y → tIntMax.In (math o x y) → R.In (math o x y)) → (∀ x, T.Has x → R.In x) → (∀ y, U.Has y → R.In y) →
      (∃ ri, resItv o.itv R T U = .ret ri ∧ Proper R ri.l ∧ Proper R ri.u ∧ ∀ x y, T.Has x → U.Has y → Held ri (math o x y)) →
      (∃ x y, T.Has x ∧ U.Has y ∧ math o x y = 1) → (∃ x y, T.Has x ∧ U.Has y ∧ math o x y = -1) →
      ∃ R S, PP.automatic.result o.binOp T U = .ret R ∧ arithTy .automatic o T U = .ret S ∧ S.Wf ∧ S.kind = .safe ∧ Mid S ∧
      (∀ x, T.Has x → R.In x) ∧ (∀ y, U.Has y → R.In y) ∧
      ∀ x y, T.Has x → U.Has y → tIntMax.In (math o x y) → R.In (math o x y) ∧ S.Has (math o x y) := by
    rintro R hR sR e k k1 k2 ⟨ri, e', p1, p2, h⟩ ⟨x1, y1, hx1, hy1, m1⟩ ⟨x2, y2, hx2, hy2, m2⟩
    have h1 := h x1 y1 hx1 hy1
    have h2 := h x2 y2 hx2 hy2
    rw [m1] at h1
    rw [m2] at h2
    obtain ⟨S, a1, a2, a3, a4, a5⟩ := resTy_has hR e' p1 p2 h1 (k1 1 t1)
    have all : ∀ v, Held ri v → R.In v → S.Has v := fun v hv hi => by
      obtain ⟨S', b1, _, _, _, b5⟩ := resTy_has hR e' p1 p2 hv hi
      rw [a1] at b1; obtain rfl := Out.ret.inj b1
      exact b5
    refine ⟨R, S, e, ?_, a2, a3, ⟨by rw [a4]; exact sR, (all _ h2 (k1 _ tm)).1, a5.2⟩, k1, k2, fun x y hx hy hi =>
      ⟨k x y hx hy hi, all _ (h x y hx hy) (k x y hx hy hi)⟩⟩
    unfold arithTy
    rw [e, ret_bind]; exact a1
  rcases ho with rfl | rfl | rfl
  · obtain ⟨ri, e, p1, p2, h⟩ := add_held tIntMax wT wU
    obtain ⟨R, eR, sR, ok, hR⟩ := autoEnds_spec (Or.inl rfl) p1 p2
    have k : ∀ x y, T.Has x → U.Has y → tIntMax.In (x + y) → R.In (x + y) := fun x y hx hy hi => hR _ (h x y hx hy) hi
    refine res R ok sR ?_ k (fun x hx => ?_) (fun y hy => ?_) (add_held R wT wU) ⟨1, 0, t1, u0, rfl⟩ ⟨-1, 0, tm, u0, rfl⟩
    · show (do autoEnds (autoTemp T U) (← resItv itvAdd (autoTemp T U) T U)) = _
      rw [mid_temp hT, e, ret_bind, eR]
    · have := k x 0 hx u0; rw [Int.add_zero] at this; exact this (mid_in wT hT hx)
    · have := k 0 y t0 hy; rw [Int.zero_add] at this; exact this (mid_in wU hU hy)
  · obtain ⟨ri, e, p1, p2, h⟩ := sub_held tIntMax wT wU
    obtain ⟨R, eR, sR, ok, hR⟩ := autoEnds_spec (Or.inl rfl) p1 p2
    have k : ∀ x y, T.Has x → U.Has y → tIntMax.In (x - y) → R.In (x - y) := fun x y hx hy hi => hR _ (h x y hx hy) hi
    refine res R ok sR ?_ k (fun x hx => ?_) (fun y hy => ?_) (sub_held R wT wU) ⟨1, 0, t1, u0, rfl⟩ ⟨-1, 0, tm, u0, rfl⟩
    · show (do autoEnds tIntMax (← resItv itvSub tIntMax T U)) = _
      rw [e, ret_bind, eR]
    · have := k x 0 hx u0; rw [Int.sub_zero] at this; exact this (mid_in wT hT hx)
    · refine in_compl sR (k (-1) y tm hy (in_compl rfl ?_))
      rw [show -1 - (-1 - y) = y by omega]
      exact mid_in wU hU hy
  · obtain ⟨ri, e, p1, p2, _, h⟩ := mul_held tIntMax_ok wT wU
    obtain ⟨R, eR, sR, ok, hR⟩ := autoEnds_spec (Or.inl rfl) p1 p2
    have k : ∀ x y, T.Has x → U.Has y → tIntMax.In (x * y) → R.In (x * y) := fun x y hx hy hi => hR _ (h x y hx hy) hi
    obtain ⟨ri', e', p1', p2', _, h'⟩ := mul_held ok wT wU
    refine res R ok sR ?_ k (fun x hx => ?_) (fun y hy => ?_) ⟨ri', e', p1', p2', h'⟩ ⟨1, 1, t1, u1, rfl⟩ ⟨-1, 1, tm, u1, rfl⟩
    · show (do autoEnds (autoTemp T U) (← resItv itvMul (autoTemp T U) T U)) = _
      rw [mid_temp hT, e, ret_bind, eR]
    · have := k x 1 hx u1; rw [Int.mul_one] at this; exact this (mid_in wT hT hx)
    · have := k 1 y t1 hy; rw [Int.one_mul] at this; exact this (mid_in wU hU hy)

theorem auto_cmp {T U : Opd} (wT : T.Wf) (wU : U.Wf) (hT : Mid T) (hU : Mid U) {R : ITy} (h : PP.automatic.result .cmp T U = .ret R) :
    (∀ x, T.Has x → R.In x) ∧ ∀ y, U.Has y → R.In y := by
  have l : T.lo ≤ T.hi := wT.2.2.2.1
  have l' : U.lo ≤ U.hi := wU.2.2.2.1
  obtain ⟨R', e, h1, h2⟩ := autoCmp_in wT wU
    (by rw [mid_temp hT]; exact ⟨mid_in wT hT ⟨le_refl _, l⟩, mid_in wT hT ⟨l, le_refl _⟩⟩)
    (by rw [mid_temp hT]; exact ⟨mid_in wU hU ⟨le_refl _, l'⟩, mid_in wU hU ⟨l', le_refl _⟩⟩)
  have h : autoResult .cmp T U = .ret R := h
  rw [e] at h; obtain rfl := Out.ret.inj h
  exact ⟨fun x hx => ⟨Int.le_trans h1.1.1 hx.1, Int.le_trans hx.2 h1.2.2⟩,
    fun x hx => ⟨Int.le_trans h2.1.1 hx.1, Int.le_trans hx.2 h2.2.2⟩⟩

variable {N : Names}

omit [Arch] in
theorem ival_prom {g : N.P → PP} {n : Nat} (s : Fin n → Int) : ∀ e : LExpr N n, ival s (promE g e) = ival s e
  | .var _ => rfl
  | .const _ _ => rfl
  | .lit _ => rfl
  | .bin o a b => by simp only [promE, ival, ival_prom s a, ival_prom s b]
  | .neg a => by simp only [promE, ival, ival_prom s a]
  | .pos a => ival_prom s a
  | .cast _ a => ival_prom s a

omit [Arch] in
theorem icond_prom {g : N.P → PP} {n : Nat} (s : Fin n → Int) : ∀ c : LCond N n, icond s (promC g c) = icond s c
  | .cmp o a b => by simp only [promC, icond, ival_prom]
  | .truth a => by simp only [promC, icond, ival_prom]
  | .not a => by simp only [promC, icond, icond_prom s a]
  | .and a b => by simp only [promC, icond, icond_prom s a, icond_prom s b]
  | .or a b => by simp only [promC, icond, icond_prom s a, icond_prom s b]

omit [Arch] in
theorem iexec_prom {g : N.P → PP} {n : Nat} : ∀ (f : Nat) (p : LStmt N n) (s : IState n), iexec f (promS g p) s = iexec f p s
  | 0, _, _ => by simp only [iexec]
  | _ + 1, .skip, _ => rfl
  | _ + 1, .assign i e, s => by simp only [promS, iexec, ival_prom]
  | _ + 1, .opAssign o i e, s => by simp only [promS, iexec, ival_prom]
  | _ + 1, .inc i, s => rfl
  | _ + 1, .dec i, s => rfl
  | _ + 1, .input i, s => rfl
  | _ + 1, .output e, s => by simp only [promS, iexec, ival_prom]
  | f + 1, .seq a b, s => by simp only [promS, iexec, iexec_prom f]
  | f + 1, .ite c a b, s => by simp only [promS, iexec, icond_prom, iexec_prom f]
  | f + 1, .while c a, s => by
    have h := fun s => iexec_prom (g := g) f (.while c a) s
    simp only [promS] at h
    simp only [promS, iexec, icond_prom, iexec_prom f, h]
  | f + 1, .tryCatch a b, s => by simp only [promS, iexec, iexec_prom f]

/-- a type under native promotion and the type of the same expression under automatic promotion -/
structure Turned (T : PTy N) (T' : PTy (promN N (autoOf N))) : Prop where
  pr : T'.pr = T.pr
  ex : T'.ex = T.ex
  kind : T'.opd.kind = T.opd.kind
  notLit : NotLit T.opd
  signed : T.opd.base.signed = true
  wf : T.opd.Wf
  wf' : T'.opd.Wf
  mid : Mid T'.opd
  same : T.opd.kind = .builtin → T'.opd = T.opd

theorem Turned.isSafe {T : PTy N} {T' : PTy (promN N (autoOf N))} (h : Turned T T') : T'.isSafe = T.isSafe := by
  simp only [PTy.isSafe, h.kind]

omit [Arch] in
theorem mid_builtin {B : ITy} (h : B.signed = true) : Mid (Opd.ofBuiltin B) := by
  refine ⟨h, ?_, ?_⟩
  · show B.min ≤ -1
    unfold ITy.min; rw [h]
    have := two_pow_pos B.digits
    simp only [if_true]; omega
  · show 1 ≤ B.max
    exact Int.le_trans (by decide) B.max_ge

theorem turned_builtin {B : ITy} (ok : B.Ok) (h : B.signed = true) : Turned (PTy.builtin B : PTy N) (PTy.builtin B) :=
  ⟨rfl, rfl, rfl, Or.inl rfl, h, wf_builtin ok, wf_builtin ok, mid_builtin h, fun _ => rfl⟩

theorem turned_self {T : PTy N} (w : T.opd.Wf) (h : Mid T.opd) (hl : NotLit T.opd) : Turned T (promT (autoOf N) T) :=
  ⟨rfl, rfl, rfl, hl, h.signed, w, w, h, fun _ => rfl⟩

theorem native_max {o : Op2} {T U : PTy N} (wT : T.opd.Wf) (wU : U.opd.Wf) (sT : T.opd.base.signed = true)
    (sU : U.opd.base.signed = true) :
    (nativeResult (opName o) T.opd.base U.opd.base).signed = true ∧ (nativeResult (opName o) T.opd.base U.opd.base).Ok := by
  have p1 := (promote_mono sT sT (le_refl _)).1
  have p2 := (promote_mono sU sU (le_refl _)).1
  refine ⟨(native_signed (o := o) p1 p2 p1 p2 (le_refl _) (le_refl _)).1, ?_⟩
  have k := uac_ok wT.1 wU.1
  have k' : (promote T.opd.base).Ok := by
    unfold promote; split
    · exact tInt_ok
    · exact wT.1
  cases o with
  | ar a => cases a <;> exact k
  | bit b => cases b <;> exact k
  | shl => exact k'
  | shr => exact k'

/-- the value of an operation that fits under native promotion -/
theorem fits_max (hn : Native N) {o : Op2} {T U : PTy N} (wT : T.opd.Wf) (wU : U.opd.Wf) (sT : T.opd.base.signed = true)
    (sU : U.opd.base.signed = true) {t u v : Int} (ht : T.opd.Has t) (hu : U.opd.Has u) {q : N.P} (hq : common T.pr U.pr = .ret q)
    (hf : BinFits o T U t u) (hv : imath o t u = some v) : tIntMax.In v := by
  obtain ⟨s, ok⟩ := native_max (o := o) wT wU sT sU
  rcases hf q _ hq (by rw [hn q]; rfl) with ⟨_, _, ⟨w, h3, h4⟩, _⟩ | ⟨rfl, hz⟩
  · rw [hv] at h3; cases h3
    exact in_wider (R' := tIntMax) s rfl ok h4
  · have : t * u = 0 := by
      have t1 := ht.1; have t2 := ht.2; have u1 := hu.1; have u2 := hu.2
      rcases hz with ⟨a, b, _⟩ | ⟨a, b, _⟩
      · have : t = 0 := by omega
        rw [this, Int.zero_mul]
      · have : u = 0 := by omega
        rw [this, Int.mul_zero]
    cases hv
    rw [this]; exact ITy.in_zero _

omit [Arch] in
theorem ring_arith {o : Op2} (ho : Ring o) : ∃ a : Arith, o = .ar a ∧ (a = .add ∨ a = .sub ∨ a = .mul) := by
  rcases ho with rfl | rfl | rfl <;> exact ⟨_, rfl, by simp⟩

omit [Arch] in
theorem ring_math {a : Arith} (ha : a = .add ∨ a = .sub ∨ a = .mul) (t u : Int) : imath (.ar a) t u = some (math a t u) := by
  rcases ha with rfl | rfl | rfl <;> rfl

theorem binFits_auto (hn : Native N) {o : Op2} (ho : Ring o) {T U : PTy N} {T' U' : PTy (promN N (autoOf N))} (hT : Turned T T')
    (hU : Turned U U') {t u : Int} (ht : T.opd.Has t) (hu : U.opd.Has u) (ht' : T'.opd.Has t) (hu' : U'.opd.Has u)
    (hf : BinFits o T U t u) : BinFits o T' U' t u := by
  intro q R hq hR
  rw [hT.pr, hU.pr] at hq
  obtain ⟨a, rfl, ha⟩ := ring_arith ho
  have hv := fits_max hn hT.wf hU.wf hT.signed hU.signed ht hu hq hf (ring_math ha t u)
  obtain ⟨R', S, e, _, _, _, _, k1, k2, k3⟩ := auto_op ha hT.wf' hU.wf' hT.mid hU.mid
  have hR : PP.automatic.result a.binOp T'.opd U'.opd = .ret R := hR
  rw [e] at hR; obtain rfl := Out.ret.inj hR
  exact Or.inl ⟨k1 t ht', k2 u hu', ⟨_, ring_math ha t u, (k3 t u ht' hu' hv).1⟩, nofun, nofun⟩

/-- the type of a sum, difference or product -/
theorem pBinTy_auto (hn : Native N) {o : Op2} (ho : Ring o) {T U S : PTy N} {T' U' : PTy (promN N (autoOf N))} (hT : Turned T T')
    (hU : Turned U U') (hsafe : T.isSafe = true ∨ U.isSafe = true) (wS : S.opd.Wf) {t u v : Int} (ht : T.opd.Has t) (hu : U.opd.Has u)
    (ht' : T'.opd.Has t) (hu' : U'.opd.Has u) (hf : BinFits o T U t u) (hv : imath o t u = some v) (h : pBinTy o T U = .ret S) :
    ∃ S', pBinTy o T' U' = .ret S' ∧ Turned S S' ∧ S'.opd.Has v := by
  obtain ⟨a, rfl, ha⟩ := ring_arith ho
  have eb := pBinTy_base hn h
  unfold pBinTy at h
  rw [if_pos (isSafe_or hsafe)] at h
  rcases common_st T.pr U.pr with ⟨q, eq⟩ | eq <;> rw [eq] at h
  · rcases common_st T.ex U.ex with ⟨e, ee⟩ | ee <;> rw [ee] at h
    · simp only [ret_bind] at h
      rcases hS : Op2.safeTy (N.prom q) (.ar a) T.opd U.opd with S0 | x | x <;> rw [hS] at h
      · cases h
        obtain ⟨R, S1, _, e1, w1, k1, m1, _, _, k3⟩ := auto_op ha hT.wf' hU.wf' hT.mid hU.mid
        have hm := fits_max hn hT.wf hU.wf hT.signed hU.signed ht hu eq hf hv
        rw [ring_math ha] at hv; cases hv
        have hk : S0.kind = .safe := by
          rw [hn q] at hS; exact safeTy_kind hS
        refine ⟨⟨S1, some q, some e⟩, ?_, ⟨rfl, rfl, by show S1.kind = S0.kind; rw [k1, hk], Or.inr hk, ?_, wS, w1, m1, fun g => ?_⟩,
          (k3 t u ht' hu' hm).2⟩
        · unfold pBinTy
          rw [hT.isSafe, hU.isSafe, if_pos (isSafe_or hsafe), hT.pr, hU.pr, hT.ex, hU.ex]
          show (common T.pr U.pr >>= fun q => common T.ex U.ex >>= fun e => arithTy .automatic a T'.opd U'.opd >>= fun S =>
            .ret (PTy.mk (N := promN N (autoOf N)) S (some q) (some e))) = _
          rw [eq, ret_bind, ee, ret_bind, e1, ret_bind]
        · show S0.base.signed = true
          have eb : S0.base = nativeResult (opName (.ar a)) T.opd.base U.opd.base := eb
          rw [eb]; exact (native_max hT.wf hU.wf hT.signed hU.signed).1
        · rw [show (PTy.mk S0 (some q) (some e) : PTy N).opd.kind = S0.kind from rfl, hk] at g; cases g
      · cases h
      · cases h
    · cases h
  · cases h

/-- expressions: everything fits, the type exists and has the value -/
theorem auto_expr (hN : Careful N) (hn : Native N) {n : Nat} {Γ : Fin n → PTy N} (hΓ : GoodVars Γ) (hm : ∀ i, Mid (Γ i).opd)
    {s : Fin n → Int} (hs : Ranged Γ s) : ∀ (e : LExpr N n) {v : Int}, ECovered Γ e → ERing e → e.eval Γ s = .ret v →
      EFits (fun i => promT (autoOf N) (Γ i)) s (promE (autoOf N) e) ∧
      ∃ T T', e.ty Γ = .ret T ∧ (promE (autoOf N) e).ty (fun i => promT (autoOf N) (Γ i)) = .ret T' ∧ Turned T T' ∧ T.opd.Has v ∧
        T'.opd.Has v
  | .var i, v, _, _, hv => by
    cases hv
    exact ⟨trivial, _, _, rfl, rfl, turned_self (hΓ i).1.1 (hm i) (hΓ i).2, hs i, hs i⟩
  | .const B k, v, h, g, hv => by
    cases hv
    exact ⟨trivial, _, _, rfl, rfl, turned_builtin h.1 g, h.2, h.2⟩
  | .lit L, _, _, g, _ => g.elim
  | .pos a, v, h, g, hv => by
    have hv : a.eval Γ s = .ret v := hv
    obtain ⟨f, T, T', e1, e2, t, h1, h2⟩ := auto_expr hN hn hΓ hm hs a h g hv
    refine ⟨f, posTyOf T, posTyOf T', by simp only [LExpr.ty, e1, ret_bind], by simp only [promE, LExpr.ty, e2, ret_bind], ?_⟩
    unfold posTyOf
    rw [t.kind]
    rcases t.notLit with k | k
    · rw [k]
      dsimp only
      have ep : T'.opd = T.opd := t.same k
      rw [ep]
      have ok : (promote T.opd.base).Ok := by
        unfold promote; split
        · exact tInt_ok
        · exact t.wf.1
      have sg := (promote_mono t.signed t.signed (le_refl _)).1
      have hi : (promote T.opd.base).In v := in_promote (t.wf.has_in h1)
      exact ⟨turned_builtin ok sg, hi, hi⟩
    · rw [k]
      exact ⟨t, h1, h2⟩
  | .cast S a, v, h, g, hv => by
    have hf := eval_fits hN hΓ hs _ h hv
    obtain ⟨T, x, eT, wT, vx, hx, mx⟩ | ⟨x, ex⟩ | ex := eval_good hN hΓ hs _ h
    · rw [hv] at vx; cases vx
      simp only [LExpr.ty] at eT
      cases eT
      simp only [LExpr.eval] at hv
      rcases ty_st Γ a with ⟨A, ea⟩ | ea <;> rw [ea] at hv
      · rcases va : a.eval Γ s with y | y | y <;> rw [va] at hv
        · have hnl := (h.2 A ea).2.1
          obtain ⟨f, _⟩ := auto_expr hN hn hΓ hm hs a h.1 g.2 va
          exact ⟨⟨f, fun t ht => hf.2 t (by rw [ival_prom] at ht; exact ht)⟩, _, _, rfl, rfl, turned_self wT.1 g.1 hnl, hx, hx⟩
        · cases hv
        · cases hv
      · cases hv
    · rw [hv] at ex; cases ex
    · rw [hv] at ex; cases ex
  | .neg a, v, h, g, hv => by
    have hf := eval_fits hN hΓ hs _ h hv
    obtain ⟨S, x, eS, wS, vx, hx, mx⟩ | ⟨x, ex⟩ | ex := eval_good hN hΓ hs _ h
    · rw [hv] at vx; cases vx
      simp only [LExpr.eval] at hv
      rcases ty_st Γ a with ⟨A, ea⟩ | ea <;> rw [ea] at hv
      · rcases va : a.eval Γ s with y | y | y <;> rw [va] at hv
        · obtain ⟨f, A', A1, ea', e2, t, h1, h2⟩ := auto_expr hN hn hΓ hm hs a h.1 g va
          rw [ea] at ea'; obtain rfl := Out.ret.inj ea'
          have my : ival s a = some y := by
            obtain ⟨_, z, _, _, vz, _, mz⟩ | ⟨z, ez⟩ | ez := eval_good hN hΓ hs a h.1
            · rw [va] at vz; cases vz; exact mz
            · rw [va] at ez; cases ez
            · rw [va] at ez; cases ez
          have hsafe : A.isSafe = true := h.2 A ea
          have hk : A.opd.kind = .safe := by
            rcases t.notLit with k | k
            · unfold PTy.isSafe at hsafe; rw [k] at hsafe; simp at hsafe
            · exact k
          have hb := hf.2 A y ea hk my
          have ti : Turned (PTy.builtin tInt : PTy N) (PTy.builtin tInt) := turned_builtin tInt_ok rfl
          have z : (Opd.ofBuiltin tInt).Has 0 := ITy.in_zero tInt
          simp only [LExpr.ty, ea, ret_bind] at eS
          unfold negTyOf at eS
          rw [hk] at eS
          have hvm : imath (.ar .sub) 0 y = some v := by
            simp only [ival, my] at mx
            have : (some (-y) : Option Int) = some v := mx
            cases this
            show some (0 - y) = some (-y)
            rw [Int.zero_sub]
          obtain ⟨S', b1, b2, b3⟩ := pBinTy_auto hn (Or.inr (Or.inl rfl)) ti t (Or.inr hsafe) wS.1 z h1 z h2 hb hvm eS
          refine ⟨⟨f, fun T' u ha' hk' hu => ?_⟩, S, S', ?_, ?_, b2, hx, b3⟩
          · rw [ival_prom, my] at hu; cases hu
            rw [e2] at ha'; obtain rfl := Out.ret.inj ha'
            exact binFits_auto hn (Or.inr (Or.inl rfl)) ti t z h1 z h2 hb
          · simp only [LExpr.ty, ea, ret_bind]
            unfold negTyOf
            rw [hk]; exact eS
          · simp only [promE, LExpr.ty, e2, ret_bind]
            unfold negTyOf
            rw [t.kind, hk]; exact b1
        · cases hv
        · cases hv
      · cases hv
    · rw [hv] at ex; cases ex
    · rw [hv] at ex; cases ex
  | .bin o a b, v, h, g, hv => by
    have hf := eval_fits hN hΓ hs _ h hv
    obtain ⟨S, x, eS, wS, vx, hx, mx⟩ | ⟨x, ex⟩ | ex := eval_good hN hΓ hs _ h
    · rw [hv] at vx; cases vx
      simp only [LExpr.eval] at hv
      rcases ty_st Γ a with ⟨A, ea⟩ | ea <;> rw [ea] at hv
      · rcases ty_st Γ b with ⟨B, eb⟩ | eb <;> rw [eb] at hv
        · simp only [ret_bind] at hv
          rcases va : a.eval Γ s with y | y | y <;> rw [va] at hv
          · rcases vb : b.eval Γ s with z | z | z <;> rw [vb] at hv
            · obtain ⟨f1, A', A1, ea', e1, t1, h1, h1'⟩ := auto_expr hN hn hΓ hm hs a h.1 g.2.1 va
              rw [ea] at ea'; obtain rfl := Out.ret.inj ea'
              obtain ⟨f2, B', B1, eb', e2, t2, h2, h2'⟩ := auto_expr hN hn hΓ hm hs b h.2.1 g.2.2 vb
              rw [eb] at eb'; obtain rfl := Out.ret.inj eb'
              have my : ival s a = some y := by
                obtain ⟨_, z, _, _, vz, _, mz⟩ | ⟨z, ez⟩ | ez := eval_good hN hΓ hs a h.1
                · rw [va] at vz; cases vz; exact mz
                · rw [va] at ez; cases ez
                · rw [va] at ez; cases ez
              have mz : ival s b = some z := by
                obtain ⟨_, z, _, _, vz, _, mz⟩ | ⟨z, ez⟩ | ez := eval_good hN hΓ hs b h.2.1
                · rw [vb] at vz; cases vz; exact mz
                · rw [vb] at ez; cases ez
                · rw [vb] at ez; cases ez
              have hb := hf.2.2 A B y z ea eb my mz
              have hvm : imath o y z = some v := by
                simp only [ival, my, mz] at mx
                exact mx
              have eS' : pBinTy o A B = .ret S := by
                simp only [LExpr.ty, ea, eb, ret_bind] at eS; exact eS
              obtain ⟨S', b1, b2, b3⟩ := pBinTy_auto hn g.1 t1 t2 (h.2.2 A B ea eb).1 wS.1 h1 h2 h1' h2' hb hvm eS'
              refine ⟨⟨f1, f2, fun T' U' t u ha' hb' ht hu => ?_⟩, S, S', eS, ?_, b2, hx, b3⟩
              · rw [ival_prom, my] at ht; cases ht
                rw [ival_prom, mz] at hu; cases hu
                rw [e1] at ha'; obtain rfl := Out.ret.inj ha'
                rw [e2] at hb'; obtain rfl := Out.ret.inj hb'
                exact binFits_auto hn g.1 t1 t2 h1 h2 h1' h2' hb
              · simp only [promE, LExpr.ty, e1, e2, ret_bind]; exact b1
            · cases hv
            · cases hv
          · cases hv
          · cases hv
        · cases hv
      · cases hv
    · rw [hv] at ex; cases ex
    · rw [hv] at ex; cases ex

theorem auto_cond (hN : Careful N) (hn : Native N) {n : Nat} {Γ : Fin n → PTy N} (hΓ : GoodVars Γ) (hm : ∀ i, Mid (Γ i).opd)
    {s : Fin n → Int} (hs : Ranged Γ s) : ∀ (c : LCond N n) {b : Bool}, CCovered Γ c → CRing c → c.eval Γ s = .ret b →
      CFits (fun i => promT (autoOf N) (Γ i)) s (promC (autoOf N) c)
  | .cmp o a b, r, h, g, hv => by
    simp only [LCond.eval] at hv
    rcases ty_st Γ a with ⟨A, ea⟩ | ea <;> rw [ea] at hv
    · rcases ty_st Γ b with ⟨B, eb⟩ | eb <;> rw [eb] at hv
      · simp only [ret_bind] at hv
        rcases eval_good hN hΓ hs a h.1 with ⟨A', x, ea', wA, va, hx, mx⟩ | ⟨x, ex⟩ | ex
        · rw [va, ret_bind] at hv
          rcases eval_good hN hΓ hs b h.2.1 with ⟨B', y, eb', wB, vb, hy, my⟩ | ⟨x, ex⟩ | ex
          · obtain ⟨f1, _, A1, _, e1, t1, _, h1'⟩ := auto_expr hN hn hΓ hm hs a h.1 g.1 va
            obtain ⟨f2, _, B1, _, e2, t2, _, h2'⟩ := auto_expr hN hn hΓ hm hs b h.2.1 g.2 vb
            refine ⟨f1, f2, fun T' U' t u q R ha' hb' ht hu hq hR => ?_⟩
            rw [ival_prom, mx] at ht; cases ht
            rw [ival_prom, my] at hu; cases hu
            rw [e1] at ha'; obtain rfl := Out.ret.inj ha'
            rw [e2] at hb'; obtain rfl := Out.ret.inj hb'
            have k := fun R h => auto_cmp (R := R) t1.wf' t2.wf' t1.mid t2.mid h
            have k' := fun R h => auto_cmp (R := R) t2.wf' t1.wf' t2.mid t1.mid h
            cases o <;>
              first
              | exact Or.inl ⟨(k R hR).1 x h1', (k R hR).2 y h2'⟩
              | exact Or.inl ⟨(k' R hR).2 x h1', (k' R hR).1 y h2'⟩
          · rw [ex] at hv; cases hv
          · rw [ex] at hv; cases hv
        · rw [ex] at hv; cases hv
        · rw [ex] at hv; cases hv
      · cases hv
    · cases hv
  | .truth a, r, h, g, hv => by
    have hf := cond_fits hN hΓ hs _ h hv
    simp only [LCond.eval] at hv
    rcases eval_good hN hΓ hs a h with ⟨A, x, ea, wA, vx, hx, mx⟩ | ⟨x, ex⟩ | ex
    · obtain ⟨f1, A', A1, ea', e1, t1, _, h1'⟩ := auto_expr hN hn hΓ hm hs a h g vx
      refine ⟨f1, fun T' t hT' ht hsafe => hf.2 A' t ea' (by rw [ival_prom] at ht; exact ht) ?_⟩
      rw [e1] at hT'; obtain rfl := Out.ret.inj hT'
      rw [← t1.isSafe]; exact hsafe
    · rcases ty_st Γ a with ⟨A, ea⟩ | ea <;> rw [ea] at hv
      · rw [ex] at hv; cases hv
      · cases hv
    · rcases ty_st Γ a with ⟨A, ea⟩ | ea <;> rw [ea] at hv
      · rw [ex] at hv; cases hv
      · cases hv
  | .not a, r, h, g, hv => by
    simp only [LCond.eval] at hv
    obtain ⟨c, hv⟩ := ret_not hv
    exact auto_cond hN hn hΓ hm hs a h g hv
  | .and a b, r, h, g, hv => by
    simp only [LCond.eval] at hv
    rcases cond_good hN hΓ hs a h.1 with ⟨x, h1, h2⟩ | ⟨e, h1⟩ | h1 <;> rw [h1] at hv
    · refine ⟨auto_cond hN hn hΓ hm hs a h.1 g.1 h1, fun h3 => ?_⟩
      rw [icond_prom, h2] at h3; cases h3
      exact auto_cond hN hn hΓ hm hs b h.2 g.2 hv
    · cases hv
    · cases hv
  | .or a b, r, h, g, hv => by
    simp only [LCond.eval] at hv
    rcases cond_good hN hΓ hs a h.1 with ⟨x, h1, h2⟩ | ⟨e, h1⟩ | h1 <;> rw [h1] at hv
    · refine ⟨auto_cond hN hn hΓ hm hs a h.1 g.1 h1, fun h3 => ?_⟩
      rw [icond_prom, h2] at h3; cases h3
      exact auto_cond hN hn hΓ hm hs b h.2 g.2 hv
    · cases hv
    · cases hv

/-- `x op= e` -/
theorem opAssign_auto (hN : Careful N) (hn : Native N) {n : Nat} {Γ : Fin n → PTy N} (hΓ : GoodVars Γ) (hm : ∀ i, Mid (Γ i).opd)
    {s : Fin n → Int} (hs : Ranged Γ s) {o : Op2} {i : Fin n} {e : LExpr N n} (hc : AssignCovered Γ o i e) (hg : Ring o ∧ ERing e) {r : Int}
    (h : opAssignVal Γ s o i e = .ret r) :
    EFits (fun i => promT (autoOf N) (Γ i)) s (promE (autoOf N) e) ∧
    ∀ U u, (promE (autoOf N) e).ty (fun i => promT (autoOf N) (Γ i)) = .ret U → ival s (promE (autoOf N) e) = some u →
      BinFits o (promT (autoOf N) (Γ i)) U (s i) u ∧ ∀ v, imath o (s i) u = some v → (promT (autoOf N) (Γ i)).opd.Has v := by
  obtain ⟨_, f2⟩ := opAssign_fits hN hΓ hs hc h
  rcases eval_good hN hΓ hs e hc.1 with ⟨_, x, _, _, vx, _, mx⟩ | ⟨x, ex⟩ | ex
  · obtain ⟨g1, A, A', e1, e2, t, h1, h2⟩ := auto_expr hN hn hΓ hm hs e hc.1 hg.2 vx
    refine ⟨g1, fun U u hU hu => ?_⟩
    rw [ival_prom] at hu
    obtain ⟨b1, b2⟩ := f2 A u e1 hu
    rw [mx] at hu; cases hu
    rw [e2] at hU; obtain rfl := Out.ret.inj hU
    exact ⟨binFits_auto hn hg.1 (turned_self (hΓ i).1.1 (hm i) (hΓ i).2) t (hs i) h1 (hs i) h2 b1, b2⟩
  · unfold opAssignVal at h
    rcases ty_st Γ e with ⟨A, ea⟩ | ea <;> rw [ea] at h
    · rw [ex] at h; cases h
    · cases h
  · unfold opAssignVal at h
    rcases ty_st Γ e with ⟨A, ea⟩ | ea <;> rw [ea] at h
    · rw [ex] at h; cases h
    · cases h

theorem careful_auto (hN : Careful N) : Careful (promN N (autoOf N)) := ⟨hN.1, fun _ => trivial⟩

theorem good_auto {n : Nat} {Γ : Fin n → PTy N} (hΓ : GoodVars Γ) : GoodVars (fun i => promT (autoOf N) (Γ i)) := hΓ

end
end Verif
