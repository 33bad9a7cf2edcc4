import Verif.TraceSpec
import Verif.Proofs.Blame
import Verif.Props.Fits

/-!
Lemmas for Props/Trace.
-/

namespace Verif.Lang
open Spec Props
section
variable [Arch]

/-! ### operations and outcomes -/

theorem explains_nil {N : Names} {α : Type} (a : α) : Explains ([] : List (Event N)) 0 (Out.ret a) :=
  ⟨rfl, fun _ h => by cases h⟩

theorem explains_ill {N : Names} {α : Type} : Explains ([] : List (Event N)) 0 (.fault .illFormed : Out α) :=
  ⟨rfl, Or.inl ⟨rfl, fun _ h => by cases h⟩⟩

theorem explains_one {N : Names} {α : Type} {ev : Event N} {x : Out α} (h : ev.out = void x) : Explains [ev] 0 x := by
  rcases x with a | e | k
  · exact ⟨by simp [List.countP_cons, Event.throws, h, void, isThrown], fun ev' h' => by
      rw [List.mem_singleton.1 h', h]; rfl⟩
  · exact ⟨by simp [List.countP_cons, Event.throws, h, void, isThrown], [], ev, rfl, h, fun _ h => by cases h⟩
  · exact ⟨by simp [List.countP_cons, Event.throws, h, void, isThrown], Or.inr ⟨[], ev, rfl, h, fun _ h => by cases h⟩⟩

/-- operations that lead to a value, followed by others -/
theorem explains_then {N : Names} {α β : Type} {l m : List (Event N)} {j k : Nat} {a : α} {o : Out β} (h : Explains l j (Out.ret a))
    (g : Explains m k o) : Explains (l ++ m) (j + k) o := by
  obtain ⟨h1, h2⟩ := h
  obtain ⟨g1, g2⟩ := g
  have all : ∀ m', (∀ ev ∈ m', isFault ev.out = false) → ∀ ev ∈ l ++ m', isFault ev.out = false := fun m' h ev hev =>
    (List.mem_append.1 hev).elim (h2 ev) (h ev)
  refine ⟨by rw [List.countP_append, h1, g1]; simp [isThrown]; omega, ?_⟩
  rcases o with b | e | f
  · exact all m g2
  · obtain ⟨l', ev, rfl, h3, h4⟩ := g2
    exact ⟨l ++ l', ev, by simp, h3, all l' h4⟩
  · rcases g2 with ⟨rfl, g2⟩ | ⟨l', ev, rfl, h3, h4⟩
    · exact Or.inl ⟨rfl, all m g2⟩
    · exact Or.inr ⟨l ++ l', ev, by simp, h3, all l' h4⟩

theorem explains_bind {N : Names} {α β : Type} {l : List (Event N)} {x : Out α} {f : α → List (Event N)} {g : α → Out β}
    (h : Explains l 0 x) (k : ∀ a, x = .ret a → Explains (f a) 0 (g a)) : Explains (l ++ after x f) 0 (x >>= g) := by
  rcases x with a | e | j
  · exact explains_then h (k a rfl)
  · rw [show l ++ after (Out.thrown e) f = l by simp [after]]; exact h
  · rw [show l ++ after (Out.fault j) f = l by simp [after]]; exact h

theorem explains_ty {N : Names} {α β : Type} {x : Out α} {f : α → List (Event N)} {g : α → Out β}
    (h : (∃ a, x = .ret a) ∨ x = .fault .illFormed) (k : ∀ a, x = .ret a → Explains (f a) 0 (g a)) :
    Explains (after x f) 0 (x >>= g) := by
  rcases h with ⟨a, rfl⟩ | rfl
  · exact k a rfl
  · exact explains_ill

theorem eval_explains {N : Names} {n : Nat} (Γ : Fin n → PTy N) (s : Fin n → Int) : ∀ e : LExpr N n,
    Explains (eEvents Γ s e) 0 (e.eval Γ s)
  | .var i => explains_nil _
  | .const B k => explains_nil _
  | .lit L => explains_nil _
  | .pos a => eval_explains Γ s a
  | .neg a => explains_ty (ty_st Γ a) fun _ _ => explains_bind (eval_explains Γ s a) fun _ _ => explains_one rfl
  | .cast S a => explains_ty (ty_st Γ a) fun _ _ => explains_bind (eval_explains Γ s a) fun _ _ => explains_one rfl
  | .bin o a b => explains_ty (ty_st Γ a) fun _ _ => explains_ty (ty_st Γ b) fun _ _ => explains_bind (eval_explains Γ s a) fun _ _ =>
      explains_bind (eval_explains Γ s b) fun _ _ => explains_one rfl

theorem explains_ret {N : Names} {α β : Type} {l : List (Event N)} {x : Out α} {g : α → β} (h : Explains l 0 x) :
    Explains l 0 (x >>= fun a => Out.ret (g a)) := by
  have := explains_bind (f := fun _ => []) h fun a _ => explains_nil (N := N) (g a)
  rcases x with a | e | j <;> simpa [after] using this

theorem cond_explains {N : Names} {n : Nat} (Γ : Fin n → PTy N) (s : Fin n → Int) : ∀ c : LCond N n,
    Explains (cEvents Γ s c) 0 (c.eval Γ s)
  | .cmp o a b => explains_ty (ty_st Γ a) fun _ _ => explains_ty (ty_st Γ b) fun _ _ => explains_bind (eval_explains Γ s a) fun _ _ =>
      explains_bind (eval_explains Γ s b) fun _ _ => explains_one rfl
  | .truth a => explains_ty (ty_st Γ a) fun _ _ => explains_bind (eval_explains Γ s a) fun _ _ => explains_one rfl
  | .not a => explains_ret (cond_explains Γ s a)
  | .and a b => explains_bind (cond_explains Γ s a) fun x _ => by
      cases x
      · exact explains_nil _
      · exact cond_explains Γ s b
  | .or a b => explains_bind (cond_explains Γ s a) fun x _ => by
      cases x
      · exact cond_explains Γ s b
      · exact explains_nil _

theorem opAssign_explains {N : Names} {n : Nat} (Γ : Fin n → PTy N) (s : Fin n → Int) (o : Op2) (i : Fin n) (e : LExpr N n) :
    Explains (opEvents Γ s o i e) 0 (opAssignVal Γ s o i e) :=
  explains_ty (ty_st Γ e) fun U _ => explains_bind (eval_explains Γ s e) fun u _ => explains_ty (pBinTy_st o (Γ i) U) fun S _ =>
    explains_bind (l := [.bin o (Γ i) U (s i) u]) (explains_one rfl) fun v _ => explains_one rfl

theorem assign_explains {N : Names} {n : Nat} (Γ : Fin n → PTy N) (s : Fin n → Int) (i : Fin n) (e : LExpr N n) :
    Explains (after (e.ty Γ) fun T => eEvents Γ s e ++ after (e.eval Γ s) fun v => [Event.conv (Γ i) T v]) 0
      (assignVal Γ s i e) :=
  explains_ty (ty_st Γ e) fun U _ => explains_bind (eval_explains Γ s e) fun u _ => explains_one rfl

/-! ### when operators throw -/

/-- `F` says whether `x` throws -/
def Decides {α : Type} (x : Out α) (F : Prop) : Prop := (∀ e, x = .thrown e → ¬ F) ∧ (∀ v, x = .ret v → F)

theorem shlIn_decides {R : ITy} {T U : Opd} {t u : Int} : Decides (shlIn R t u) (TyFits R .shl T U t u) := by
  refine ⟨fun e h hf => ?_, fun v h => ?_⟩
  · obtain ⟨it, iu, ⟨v, hv, iv⟩, hz, _⟩ := hf.resolve_right (fun h => by cases h.1)
    have h0 : 0 ≤ u := by by_contra h; simp [imath, h] at hv
    simp only [imath, if_pos h0] at hv
    cases hv
    have hz := hz rfl
    have iv2 := iv.2; have iv1 := iv.1
    have hd : u = 0 ∨ u ≤ R.digits := by
      rcases hz with hz | hz | hz
      · exact Or.inl hz
      · right
        have := lt_two_pow_toNat (k := u) h0
        have h1 : (2 : Int) ^ u.toNat ≤ t * 2 ^ u.toNat := by nlinarith [two_pow_pos u.toNat]
        by_contra hn
        have := two_pow_le (show R.digits ≤ u.toNat by omega)
        unfold ITy.max at iv2
        omega
      · omega
    unfold shlIn at h
    rw [castTo_of_in it, castTo_of_in iu] at h
    simp only [orThrow, Out.ret_bind] at h
    split_ifs at h with h1 h2 h3 h4 h5
    all_goals omega
  · obtain ⟨a, b, u0, c, d⟩ := shlIn_fits h
    exact Or.inl ⟨a, b, ⟨t * 2 ^ u.toNat, by simp [imath, u0], c⟩, fun _ => d, nofun⟩

theorem shrFits_of {R : ITy} {T U : Opd} {t u : Int} (a : R.In t) (b : R.In u) (u0 : 0 ≤ u) (t0 : 0 ≤ t) (d : u ≤ R.digits) :
    TyFits R .shr T U t u := by
  have g1 : t / 2 ^ u.toNat ≤ t := Int.ediv_le_self _ t0
  have g2 : 0 ≤ t / 2 ^ u.toNat := Int.ediv_nonneg t0 (Int.le_of_lt (two_pow_pos _))
  have a2 := a.2; have hz := R.min_nonpos
  exact Or.inl ⟨a, b, ⟨t / 2 ^ u.toNat, by simp [imath, u0, t0], ⟨by omega, by omega⟩⟩, nofun, fun _ => d⟩

theorem shrIn_decides {R : ITy} {T U : Opd} {t u : Int} : Decides (shrIn R t u) (TyFits R .shr T U t u) := by
  refine ⟨fun e h hf => ?_, fun v h => ?_⟩
  · obtain ⟨it, iu, ⟨v, hv, iv⟩, _, hz⟩ := hf.resolve_right (fun h => by cases h.1)
    have h0 : 0 ≤ u ∧ 0 ≤ t := by by_contra h; simp [imath, h] at hv
    have hz := hz rfl
    unfold shrIn at h
    rw [castTo_of_in it, castTo_of_in iu] at h
    simp only [orThrow, Out.ret_bind] at h
    split_ifs at h with h1 h2 h3 h4 <;> omega
  · obtain ⟨a, b, u0, t0, d⟩ := shrIn_fits h
    exact shrFits_of a b u0 t0 d

theorem decides_if {α : Type} {x : Out α} {F : Prop} (c : Prop) [Decidable c] (h : Decides x F) :
    Decides (if c then x else .fault .illFormed) F := by
  split
  · exact h
  · exact ⟨fun _ h => (nomatch h), fun _ h => (nomatch h)⟩

theorem decides_ill {α : Type} {x : Out α} {F : Prop} {k : Fault} (h : x = .fault k) : Decides x F :=
  ⟨fun _ g => (nomatch h.symm.trans g), fun _ g => (nomatch h.symm.trans g)⟩

theorem decides_ret {α : Type} {x : Out α} {F : Prop} (h : ∀ e, x ≠ .thrown e) (f : F) : Decides x F :=
  ⟨fun e g => absurd g (h e), fun _ _ => f⟩

theorem shl_decides {p : EP} (hp : p.ae = .throw) (hi : p.idb = .throw) {R : ITy} (hR : R.Ok) {T U : Opd} (hT : T.Wf) (hU : U.Wf)
    {t u : Int} (ht : T.Has t) (hu : U.Has u) (hw : ¬ LeftWrong R T U t u) :
    Decides (runOp opShl p R T U t u) (SafeFits R .shl T U t u) := by
  obtain ⟨hx, ri, e⟩ := shl_skipped hR hT hU
  rw [runOp_cases (op := opShl) e]
  by_cases hs : staticExc opShl R T U = true
  · have hn : ¬ ShlSkipped R T U := fun g => by rw [hx.2 g] at hs; cases hs
    rw [if_pos hs, checkedShl_throw hR hp hi hT ht hU hu]
    refine decides_if _ ?_
    have k := shlIn_decides (R := R) (T := T) (U := U) (t := t) (u := u)
    exact ⟨fun e h g => g.elim (k.1 e h) fun g =>
      hn ⟨g.1 ▸ R.in_zero, Or.inl ⟨g.2.1 ▸ R.in_zero, g.2.2⟩⟩, fun v h => Or.inl (k.2 v h)⟩
  · have hn : ShlSkipped R T U := hx.1 (by simpa using hs)
    rw [if_neg hs]
    refine decides_ret (plainShl_quiet R t u).1 ?_
    have t0 : 0 ≤ t := by by_contra hc; exact hw ⟨hn, Or.inl (by omega)⟩
    have u0 : 0 ≤ u := by by_contra hc; exact hw ⟨hn, Or.inr (Or.inl (by omega))⟩
    obtain ⟨i1, ⟨i2, hn⟩ | hn⟩ := hn
    swap
    · have := hu.2; have := R.min_nonpos; omega
    have it : R.In t := ⟨Int.le_trans i1.1 ht.1, Int.le_trans ht.2 i2.2⟩
    by_cases hz : T.lo = 0 ∧ T.hi = 0
    · exact Or.inr ⟨hz.1, hz.2, hn⟩
    left
    have t1 := ht.1; have t2 := ht.2; have u1 := hu.1; have u2 := hu.2
    have hm := R.max_ge; have hmn := R.min_nonpos
    have j1 := i1.1; have j2 := i2.2
    obtain ⟨_, h2, h3⟩ := hn
    rw [scale_nonneg (by omega)] at h2 h3
    have small : ∀ k : Int, 0 ≤ k → (2 : Int) ^ k.toNat ≤ R.max → k < R.digits := fun k k0 hk => by
      by_contra hn
      have := two_pow_le (show R.digits ≤ k.toNat by omega)
      unfold ITy.max at hk
      omega
    have dig := (in_digits R).2
    by_cases h0 : T.hi = 0
    · have : t = 0 := by omega
      subst this
      have hlo : T.lo < 0 := by omega
      have hd : u = 0 ∨ u < R.digits := by
        by_cases hU0 : U.hi = 0
        · left; omega
        · right
          have h4 : R.min < T.lo * 2 ^ U.hi.toNat := by
            by_contra hc; exact h3 ⟨hlo, by omega, by omega⟩
          have e := ITy.min_eq R
          have hs : R.signed = true := by
            rcases hs : R.signed with _ | _
            · have := i1.nonneg hs; omega
            · rfl
          rw [hs, if_pos rfl] at e
          have h5 := two_pow_pos U.hi.toNat
          have h6 := small U.hi (by omega) (by nlinarith)
          omega
      have iu : R.In u := ⟨by omega, by omega⟩
      exact Or.inl ⟨it, iu, ⟨0 * 2 ^ u.toNat, by simp [imath, u0], by rw [Int.zero_mul]; exact it⟩,
        fun _ => by omega, nofun⟩
    · have m := mul_pow_mono (a := t) (b := u) (t := T.hi) (u := U.hi) (by omega) t2 u2
      have g2 := mul_pow_ge (a := t) (b := u) (by omega)
      have g3 : (2 : Int) ^ u.toNat ≤ R.max := by
        have := mul_pow_mono (a := 1) (b := u) (t := T.hi) (u := U.hi) (by omega) (by omega) u2
        omega
      have := small u u0 g3
      exact Or.inl ⟨it, ⟨by omega, by omega⟩, ⟨t * 2 ^ u.toNat, by simp [imath, u0], ⟨by omega, by omega⟩⟩,
        fun _ => by omega, nofun⟩

theorem shr_decides {p : EP} (hp : p.ae = .throw) (hi : p.idb = .throw) {R : ITy} (hR : R.Ok) {T U : Opd} (hT : T.Wf) (hU : U.Wf)
    {t u : Int} (ht : T.Has t) (hu : U.Has u) (hw : ¬ RightWrong R T U t u) :
    Decides (runShr p R T U t u) (SafeFits R .shr T U t u) := by
  have t1 := ht.1; have t2 := ht.2; have u1 := hu.1; have u2 := hu.2; have hmn := R.min_nonpos
  by_cases hrej : RightRejected R T U
  · refine decides_ill (k := .illFormed) ?_
    unfold runShr
    rw [shr_rejects hR hT hU hrej]; rfl
  obtain ⟨ri, e, hx⟩ := shr_skipped hR hT hU hrej
  have run : runShr p R T U t u =
      if shrExcPossible R ⟨castTo R T.lo, castTo R T.hi⟩ ⟨castTo R U.lo, castTo R U.hi⟩ ri = true then
        runChecked opShr p R T U t u else runPlain opShr R t u := by
    unfold runShr
    rw [e, castItv_eq hT, castItv_eq hU]
    rfl
  rw [run]
  split
  · rw [checkedShr_throw hR hp hi hT ht hU hu]
    exact decides_if _ shrIn_decides
  rename_i hs
  have hn : ShrSkipped R T U := hx.1 (by simpa using hs)
  refine decides_ret (plainShr_quiet R t u).1 ?_
  have u0 : 0 ≤ u := by by_contra hc; exact hw ⟨hrej, Or.inr ⟨hn, by omega⟩⟩
  have hb := hn.1
  have hr : 0 ≤ T.lo ∧ T.hi ≤ R.max := by rcases hn.2 with g | g <;> omega
  exact shrFits_of ⟨by omega, by omega⟩ ⟨by omega, by have := (in_digits R).2; omega⟩ u0 (by omega) (by omega)

theorem div_decides {pp : PP} (hpp : pp.Wf) {p : EP} (hp : p.ae = .throw ∨ p.ae = .trap) {T U : Opd} (hT : T.Wf) (hU : U.Wf)
    {t u : Int} (ht : T.Has t) (hu : U.Has u) :
    Decides (arith pp p .div T U t u) (∀ R, pp.result .div T U = .ret R → QuotFits R T U t u) := by
  rcases PP.result_total hpp (op := .div) (by decide) hT hU with ⟨R, e, hR⟩ | e
  · have h : arith pp p .div T U t u = runDiv p R T U t u := by
      unfold arith
      rw [show Arith.div.binOp = .div from rfl, e, ret_bind]; rfl
    rw [h]
    obtain ⟨h1, h2⟩ := runDiv_decides hp hR hT hU ht hu
    exact ⟨fun x g hf => h1 x g (hf R e), fun v g R' e' => by rw [e] at e'; cases e'; exact h2 v g⟩
  · refine decides_ill (k := .illFormed) ?_
    unfold arith
    rw [show Arith.div.binOp = .div from rfl, e]; rfl

theorem mod_decides {pp : PP} (hpp : pp.Wf) {p : EP} (hp : p.ae = .throw ∨ p.ae = .trap) {T U : Opd} (hT : T.Wf) (hU : U.Wf)
    {t u : Int} (ht : T.Has t) (hu : U.Has u) :
    Decides (arith pp p .mod T U t u) (∀ R, pp.result .mod T U = .ret R → RemFits R T U t u) := by
  rcases PP.result_total hpp (op := .mod) (by decide) hT hU with ⟨R, e, hR⟩ | e
  · have h : arith pp p .mod T U t u = runMod p R T U t u := by
      unfold arith
      rw [show Arith.mod.binOp = .mod from rfl, e, ret_bind]; rfl
    rw [h]
    obtain ⟨h1, h2⟩ := runMod_decides hp hR hT hU ht hu
    exact ⟨fun x g hf => h1 x g (hf R e), fun v g R' e' => by rw [e] at e'; cases e'; exact h2 v g⟩
  · refine decides_ill (k := .illFormed) ?_
    unfold arith
    rw [show Arith.mod.binOp = .mod from rfl, e]; rfl

theorem bit_never (pp : PP) (b : Bitwise) (T U : Opd) (t u : Int) (e : Err) : bitwise pp b T U t u ≠ .thrown e := by
  unfold bitwise
  rcases result_st pp b.binOp T U with ⟨R, h⟩ | h <;> rw [h]
  swap
  · exact nofun
  rw [ret_bind]
  cases b
  · show runOr _ T U t u ≠ _
    unfold runOr
    rcases bitTy_st pickMax R T U with ⟨S, g⟩ | g <;> rw [g] <;> exact nofun
  · show runAnd _ T U t u ≠ _
    unfold runAnd
    rcases bitTy_st pickMin R T U with ⟨S, g⟩ | g <;> rw [g] <;> exact nofun
  · show runXor _ T U t u ≠ _
    unfold runXor
    rcases bitTy_st pickMax R T U with ⟨S, g⟩ | g <;> rw [g] <;> exact nofun

/-- what fits the type an operator is computed in decides whether it throws -/
theorem op_decides {pp : PP} (hpp : pp.Wf) {p : EP} (hp : p.ae = .throw ∨ p.ae = .trap) {o : Op2} {T U : Opd} (hT : T.Wf)
    (hU : U.Wf) {t u : Int} (hc : OpClean pp p T U o t u) (ht : T.Has t) (hu : U.Has u) :
    Decides (o.safeVal pp p T U t u) (∀ R, pp.result (opName o) T U = .ret R → SafeFits R o T U t u) := by
  rcases hc with hc | ⟨_, hc⟩
  · have q := op_quiet hpp hp hT hU hc ht hu
    have f := fun v h => @op_fits _ pp hpp p hp o T U hT hU hc t u v ht hu h
    cases o with
    | ar a =>
      cases a with
      | add => exact ⟨fun e h hf => q hf e h, fun v h R hR => f v h hR⟩
      | sub => exact ⟨fun e h hf => q hf e h, fun v h R hR => f v h hR⟩
      | mul => exact ⟨fun e h hf => q hf e h, fun v h R hR => f v h hR⟩
      | div => exact div_decides hpp hp hT hU ht hu
      | mod => exact mod_decides hpp hp hT hU ht hu
    | bit b => exact decides_ret (bit_never pp b T U t u) fun _ _ => trivial
    | shl =>
      refine ⟨fun e h hf => q (fun R hR => (hf R hR).resolve_right fun g => ?_) e h, fun v h R hR => Or.inl (f v h hR)⟩
      have := (hc.2 R hR).1
      omega
    | shr => exact ⟨fun e h hf => q hf e h, fun v h R hR => f v h hR⟩
  · have key : ∀ {x : Out Int} {R : ITy}, pp.result (opName o) T U = .ret R → Decides x (SafeFits R o T U t u) →
        Decides x (∀ R, pp.result (opName o) T U = .ret R → SafeFits R o T U t u) := fun {x R} hR h =>
      ⟨fun e g hf => h.1 e g (hf R hR), fun v g R' hR' => by rw [hR] at hR'; cases hR'; exact h.2 v g⟩
    cases o with
    | ar a =>
      cases a with
      | add => exact hc.elim
      | sub => exact hc.elim
      | mul => exact hc.elim
      | div => exact div_decides hpp hp hT hU ht hu
      | mod => exact mod_decides hpp hp hT hU ht hu
    | bit b => exact decides_ret (bit_never pp b T U t u) fun _ _ => trivial
    | shl =>
      obtain ⟨ha, hb, hc⟩ := hc
      obtain ⟨p, hp, hi, e | e⟩ := as_throws pp ha hb .shl T U t u
      swap
      · exact decides_ill e
      rw [e]
      rcases PP.result_shift hpp (op := .shl) (by decide) hT hU with ⟨R, e, hR⟩ | e
      · rw [show Op2.shl.safeVal pp p T U t u = runOp opShl p R T U t u by
          show shl pp p T U t u = _
          unfold shl; rw [e, ret_bind]]
        exact key e (shl_decides hp hi hR hT hU ht hu (hc R e))
      · refine decides_ill (k := .illFormed) ?_
        show shl pp p T U t u = _
        unfold shl; rw [e]; rfl
    | shr =>
      obtain ⟨ha, hb, hc⟩ := hc
      obtain ⟨p, hp, hi, e | e⟩ := as_throws pp ha hb .shr T U t u
      swap
      · exact decides_ill e
      rw [e]
      rcases PP.result_shift hpp (op := .shr) (by decide) hT hU with ⟨R, e, hR⟩ | e
      · rw [show Op2.shr.safeVal pp p T U t u = runShr p R T U t u by
          show shr pp p T U t u = _
          unfold shr; rw [e, ret_bind]]
        exact key e (shr_decides hp hi hR hT hU ht hu (hc R e))
      · refine decides_ill (k := .illFormed) ?_
        show shr pp p T U t u = _
        unfold shr; rw [e]; rfl

/-- the operands of an operation are of well-formed types and within their ranges -/
def Sound {N : Names} : Event N → Prop
  | .bin _ T U t u => PTy.Wf T ∧ PTy.Wf U ∧ T.opd.Has t ∧ U.opd.Has u
  | .neg T t => PTy.Wf T ∧ T.opd.Has t
  | .conv S T t => PTy.Wf S ∧ NotLit S.opd ∧ PTy.Wf T ∧ T.opd.Has t
  | .cmp _ T U t u => PTy.Wf T ∧ PTy.Wf U ∧ T.opd.Has t ∧ U.opd.Has u
  | .truth T t => PTy.Wf T ∧ T.opd.Has t
  | .input T old _ => PTy.Wf T ∧ NotLit T.opd ∧ T.opd.Has old
  | .output _ _ => True

theorem decides_void {α : Type} {x : Out α} {F : Prop} (h : Decides x F) : Decides (void x) F := by
  rcases x with v | e | k
  · exact ⟨fun _ g => (nomatch g), fun _ _ => h.2 v rfl⟩
  · exact ⟨fun _ _ => h.1 e rfl, fun _ g => (nomatch g)⟩
  · exact ⟨fun _ g => (nomatch g), fun _ g => (nomatch g)⟩

theorem input_flags {p : EP} (hp : p.ae = .throw) {T : Opd} (hT : T.Wf) (hc : T.base.lg ≠ 0) {old : Int}
    {s : IStream} (h : (Verif.input p T old s).1 = .ret ()) : s.eof = false ∧ s.fail = false := by
  have hc : isCharTy T.base = false := by unfold isCharTy; simpa using hc
  unfold Verif.input at h
  rcases inputStatic_cases hp hT with e | ⟨e, _⟩
  · rw [e] at h; cases h
  rw [e] at h
  dsimp only at h
  rw [hc] at h
  simp only [Bool.false_eq_true, if_false] at h
  unfold inputInt at h
  rcases hx : (inputPrep T s).extract T.base id old with ⟨m, s'⟩
  rw [hx] at h
  dsimp only at h
  by_cases hf : s'.fail = true
  · rw [if_pos hf, dispatch_throw hp] at h; cases h
  · obtain ⟨g1, g2, _⟩ := extract_good (V := T.base) (st := id) (old := old) (s := inputPrep T s) (by rw [hx]; simpa using hf)
    rcases s with ⟨b, e1, e2⟩
    unfold inputPrep at g1 g2
    split at g1
    · rename_i hs
      rw [if_pos hs] at g2
      exact ⟨g1, g2⟩
    · rename_i hs
      rw [if_neg hs] at g2
      unfold IStream.ws IStream.peek at g1 g2
      cases e1 <;> cases e2
      · exact ⟨rfl, rfl⟩
      all_goals
        exfalso
        simp at g1 g2

theorem event_decides {N : Names} (hN : Careful N) {ev : Event N} (hs : Sound ev) (hc : ev.Clean) : Decides ev.out ev.Fits := by
  cases ev with
  | bin o T U t u =>
    obtain ⟨hT, hU, ht, hu⟩ := hs
    obtain ⟨hc1, hc2⟩ := hc
    refine decides_void ?_
    unfold pBinVal
    rcases h : (T.isSafe || U.isSafe) with _ | _
    · obtain ⟨v, h1, _⟩ := bare_clean (hU.1.has_in hu) (hc2 h)
      simp only [Bool.false_eq_true, if_false]
      rw [h1]
      exact decides_ret nofun fun g => by rw [h] at g; cases g
    · rw [if_pos rfl]
      rcases common_st T.pr U.pr with ⟨q, eq⟩ | eq
      swap
      · rw [eq]; exact decides_ill rfl
      rcases common_st T.ex U.ex with ⟨e, ee⟩ | ee
      swap
      · rw [eq, ee]; exact decides_ill rfl
      rw [eq, ee]
      simp only [ret_bind]
      have k := op_decides (hN.2 q) (hN.1 e) hT.1 hU.1 (hc1 h q e eq ee) ht hu
      refine ⟨fun x g hf => k.1 x g fun R hR => hf h q R eq hR, fun v g _ q' R eq' hR => ?_⟩
      rw [eq] at eq'; cases eq'
      exact k.2 v g R hR
  | neg T t =>
    obtain ⟨hT, ht⟩ := hs
    refine decides_void ?_
    rcases hk : T.opd.kind with _ | _ | b
    · rcases neg_clean hN hT hc ht with ⟨_, v, _, _, h, _⟩ | ⟨e, h⟩ | h
      · exact ⟨fun e g => (nomatch h.symm.trans g), fun _ _ g => by rw [hk] at g; cases g⟩
      · unfold negValOf at h
        rw [hk] at h
        exfalso
        revert h
        unfold cNeg cWrap
        dsimp only
        split_ifs <;> exact nofun
      · exact decides_ill h
    · have hb : BinCovered (.ar .sub) (PTy.builtin tInt) T :=
        ⟨Or.inr (by simp [PTy.isSafe, hk]), fun _ _ _ _ => trivial⟩
      have e : negValOf T t = pBinVal (.ar .sub) (PTy.builtin tInt) T 0 t := by unfold negValOf; rw [hk]
      rw [e]
      have h0 : (PTy.builtin tInt : PTy N).opd.Has 0 := ITy.in_zero tInt
      exact ⟨fun x g hf => pbin_quiet hN (pbuiltin_wf tInt_ok) hT hb h0 ht (hf hk) x g,
        fun v g _ => pbin_fits hN (pbuiltin_wf tInt_ok) hT hb h0 ht g⟩
    · refine decides_ret (fun e => ?_) fun g => by rw [hk] at g; cases g
      unfold negValOf
      rw [hk]
      dsimp only
      have g : Static (litMinus T.opd) := Static.static _
      rcases g with ⟨L, g⟩ | g <;> rw [g] <;> exact nofun
  | conv S T t =>
    obtain ⟨hS, hl, hT, ht⟩ := hs
    refine decides_void ?_
    rcases h : (S.isSafe || T.isSafe) with _ | _
    · refine decides_ret (fun e => ?_) fun g => by rw [h] at g; cases g
      simp only [Bool.or_eq_false_iff, PTy.isSafe, ne_eq, decide_not, Bool.not_eq_false', decide_eq_true_eq] at h
      unfold convTo
      rw [h.1, h.2]
      exact nofun
    · have hcv : ConvCovered S T := ⟨hS, hl, by
        simp only [Bool.or_eq_true] at h
        exact h.elim Or.inl fun h => Or.inr (Or.inl h)⟩
      refine ⟨fun e g hf => conv_quiet hN hT hcv ht (hf h) e g, fun v g _ => ?_⟩
      rcases conv_good hN hT hcv ht with ⟨_, k⟩ | ⟨e, k⟩ | k
      · exact k
      · rw [g] at k; cases k
      · rw [g] at k; cases k
  | cmp o T U t u =>
    obtain ⟨hT, hU, ht, hu⟩ := hs
    refine decides_void ?_
    unfold pCompare
    rcases h : (T.isSafe || U.isSafe) with _ | _
    · exact decides_ret nofun fun g => by rw [h] at g; cases g
    · rw [if_pos rfl]
      rcases common_st T.pr U.pr with ⟨q, eq⟩ | eq
      swap
      · rw [eq]; exact decides_ill rfl
      rcases common_st T.ex U.ex with ⟨e, ee⟩ | ee
      swap
      · rw [eq, ee]; exact decides_ill rfl
      rw [eq, ee]
      simp only [ret_bind]
      refine ⟨fun x g hf => cmp_quiet (hN.2 q) (hN.1 e) o hT.1 hU.1 ht hu (fun R hR => hf h q R eq hR) x g,
        fun v g _ q' R eq' hR => ?_⟩
      rw [eq] at eq'; cases eq'
      exact cmp_fits (hN.1 e) hT.1 hU.1 ht hu g hR
  | truth T t =>
    obtain ⟨hT, ht⟩ := hs
    refine decides_void ?_
    exact ⟨fun e g hf => truth_quiet hN hT ht hf e g, fun v g h => truth_fits hN hT ht g h⟩
  | input T old s =>
    obtain ⟨hT, hl, ho⟩ := hs
    obtain ⟨c1, c2, c3⟩ := hc
    rcases safe_or_builtin T with h1 | ⟨h1, k1⟩
    · have hk : T.opd.kind = .safe := hl.resolve_left (by intro h; simp [PTy.isSafe, h] at h1)
      have e : inputStep T old s = Verif.input T.ep T.opd old s := by unfold inputStep; rw [h1, if_pos rfl]
      show Decides (inputStep T old s).1 _
      rw [e]
      rcases ep_careful hN (hT.2.2.1 hk).2 with hp | hp
      · refine ⟨fun x g hf => ?_, fun v g _ => ?_⟩
        · obtain ⟨f1, f2, neg, k, rest, f3, f4, f5⟩ := hf h1
          rcases C37_accepts T.ep hp T.opd hT.1 old s f1 f2 neg k rest f3 f4 f5 with h | h
          · rw [h] at g; cases g
          · rw [h] at g; cases g
        · by_cases c0 : T.opd.base.lg = 0
          · obtain ⟨_, f1, f2, neg, k, rest, f3⟩ := c1 c0
            obtain ⟨_, g2⟩ := (C90_char_outcomes T.ep hp T.opd hT.1 c0 old s (by rw [g]; exact nofun)).2.1 neg k rest f1 f2 f3
            refine ⟨f1, f2, neg, k, rest, f3, ?_, fun _ h => absurd c0 h⟩
            by_contra hh
            obtain ⟨x, g2⟩ := g2 hh
            rw [g2] at g; cases g
          have c1 : T.opd.base.lg ≠ 0 := c0
          obtain ⟨neg, k, rest, f3, f4, f5, f6⟩ := C37_reads_partial T.ep hp T.opd hT.1 c1 old s g
          have fl := input_flags hp hT.1 c1 g
          exact ⟨fl.1, fl.2, neg, k, rest, f3, f4, fun h _ => f6 h⟩
      · unfold Verif.input
        rw [inputStatic_trap hp hT.1]
        exact decides_ill rfl
    · refine decides_ret (fun e => ?_) fun g => by rw [h1] at g; cases g
      show (inputStep T old s).1 ≠ _
      unfold inputStep
      rw [h1]
      simp only [Bool.false_eq_true, if_false]
      split <;> exact nofun
  | output T t =>
    refine decides_ret (fun e => ?_) trivial
    show void (outputStep T t) ≠ _
    unfold outputStep
    split_ifs <;> exact nofun

/-! ### the operands of clean executions -/

theorem sound_after {N : Names} {α : Type} {x : Out α} {f : α → List (Event N)} (hc : ∀ ev ∈ after x f, ev.Clean)
    (h : ∀ a, x = .ret a → (∀ ev ∈ f a, ev.Clean) → ∀ ev ∈ f a, Sound ev) : ∀ ev ∈ after x f, Sound ev := by
  rcases x with a | e | k
  · exact h a rfl hc
  · exact fun _ g => by cases g
  · exact fun _ g => by cases g

theorem sound_append {N : Names} {l m : List (Event N)} (hc : ∀ ev ∈ l ++ m, ev.Clean)
    (h1 : (∀ ev ∈ l, ev.Clean) → ∀ ev ∈ l, Sound ev) (h2 : (∀ ev ∈ l, ev.Clean) → (∀ ev ∈ m, ev.Clean) → ∀ ev ∈ m, Sound ev) :
    ∀ ev ∈ l ++ m, Sound ev := fun ev hev =>
  (List.mem_append.1 hev).elim (h1 (clean_left hc) ev) (h2 (clean_left hc) (clean_right hc) ev)

theorem sound_one {N : Names} {e : Event N} (h : Sound e) : ∀ ev ∈ [e], Sound ev := fun _ g => by
  rw [List.mem_singleton.1 g]; exact h

theorem eval_range {N : Names} (hN : Careful N) {n : Nat} {Γ : Fin n → PTy N} (hΓ : GoodVars Γ) {s : Fin n → Int}
    (hs : Ranged Γ s) {e : LExpr N n} (hw : EProper e) (hc : ∀ ev ∈ eEvents Γ s e, ev.Clean) {T : PTy N} {t : Int}
    (h1 : e.ty Γ = .ret T) (h2 : e.eval Γ s = .ret t) : PTy.Wf T ∧ T.opd.Has t := by
  rcases eval_clean hN hΓ hs e hw hc with ⟨T', v, g1, g2, g3, g4, _⟩ | ⟨x, g⟩ | g
  · rw [h1] at g1; rw [h2] at g3
    cases g1; cases g3
    exact ⟨g2, g4⟩
  · rw [h2] at g; cases g
  · rw [h2] at g; cases g

theorem eval_sound {N : Names} (hN : Careful N) {n : Nat} {Γ : Fin n → PTy N} (hΓ : GoodVars Γ) {s : Fin n → Int}
    (hs : Ranged Γ s) : ∀ e : LExpr N n, EProper e → (∀ ev ∈ eEvents Γ s e, ev.Clean) → ∀ ev ∈ eEvents Γ s e, Sound ev
  | .var _, _, _ => fun _ h => by cases h
  | .const _ _, _, _ => fun _ h => by cases h
  | .lit _, _, _ => fun _ h => by cases h
  | .pos a, hw, h => eval_sound hN hΓ hs a hw h
  | .neg a, hw, h => by
    simp only [eEvents] at h ⊢
    exact sound_after h fun T eT h => sound_append h (eval_sound hN hΓ hs a hw) fun ha h => sound_after h fun t et _ =>
      sound_one (eval_range hN hΓ hs (e := a) hw ha eT et)
  | .cast S a, hw, h => by
    simp only [eEvents] at h ⊢
    exact sound_after h fun T eT h => sound_append h (eval_sound hN hΓ hs a hw.1) fun ha h => sound_after h fun t et _ =>
      sound_one ⟨hw.2.1, hw.2.2, eval_range hN hΓ hs hw.1 ha eT et⟩
  | .bin o a b, hw, h => by
    simp only [eEvents] at h ⊢
    exact sound_after h fun T eT h => sound_after h fun U eU h => sound_append h (eval_sound hN hΓ hs a hw.1) fun ha h =>
      sound_after h fun t et h => sound_append h (eval_sound hN hΓ hs b hw.2) fun hb h => sound_after h fun u eu _ => by
        have ra := eval_range hN hΓ hs hw.1 ha eT et
        have rb := eval_range hN hΓ hs hw.2 hb eU eu
        exact sound_one ⟨ra.1, rb.1, ra.2, rb.2⟩

theorem cond_sound {N : Names} (hN : Careful N) {n : Nat} {Γ : Fin n → PTy N} (hΓ : GoodVars Γ) {s : Fin n → Int}
    (hs : Ranged Γ s) : ∀ c : LCond N n, CProper c → (∀ ev ∈ cEvents Γ s c, ev.Clean) → ∀ ev ∈ cEvents Γ s c, Sound ev
  | .cmp o a b, hw, h => by
    simp only [cEvents] at h ⊢
    exact sound_after h fun T eT h => sound_after h fun U eU h => sound_append h (eval_sound hN hΓ hs a hw.1) fun ha h =>
      sound_after h fun t et h => sound_append h (eval_sound hN hΓ hs b hw.2) fun hb h => sound_after h fun u eu _ => by
        have ra := eval_range hN hΓ hs hw.1 ha eT et
        have rb := eval_range hN hΓ hs hw.2 hb eU eu
        exact sound_one ⟨ra.1, rb.1, ra.2, rb.2⟩
  | .truth a, hw, h => by
    simp only [cEvents] at h ⊢
    exact sound_after h fun T eT h => sound_append h (eval_sound hN hΓ hs a hw) fun ha h => sound_after h fun t et _ =>
      sound_one (eval_range hN hΓ hs (e := a) hw ha eT et)
  | .not a, hw, h => cond_sound hN hΓ hs a hw h
  | .and a b, hw, h => by
    simp only [cEvents] at h ⊢
    exact sound_append h (cond_sound hN hΓ hs a hw.1) fun _ h => sound_after h fun x _ h => by
      cases x
      · exact fun _ h => by cases h
      · exact cond_sound hN hΓ hs b hw.2 h
  | .or a b, hw, h => by
    simp only [cEvents] at h ⊢
    exact sound_append h (cond_sound hN hΓ hs a hw.1) fun _ h => sound_after h fun x _ h => by
      cases x
      · exact cond_sound hN hΓ hs b hw.2 h
      · exact fun _ h => by cases h

theorem opAssign_sound {N : Names} (hN : Careful N) {n : Nat} {Γ : Fin n → PTy N} (hΓ : GoodVars Γ) {s : Fin n → Int}
    (hs : Ranged Γ s) {o : Op2} {i : Fin n} {e : LExpr N n} (hw : EProper e) (h : ∀ ev ∈ opEvents Γ s o i e, ev.Clean) :
    ∀ ev ∈ opEvents Γ s o i e, Sound ev := by
  unfold opEvents at h ⊢
  refine sound_after h fun U eU h => sound_append h (eval_sound hN hΓ hs e hw) fun he h => sound_after h fun u eu h =>
    sound_after h fun S eS h => ?_
  have re := eval_range hN hΓ hs hw he eU eu
  intro ev hev
  rcases List.mem_cons.1 hev with rfl | hev
  · exact ⟨(hΓ i).1, re.1, hs i, re.2⟩
  · refine sound_after (clean_tail h) (fun v ev _ => sound_one ?_) ev hev
    rcases pbin_clean hN (hΓ i).1 re.1 (h _ List.mem_cons_self) (hs i) re.2 with ⟨S', w, g1, g2, g3, g4, _⟩ | ⟨x, g⟩ | g
    · rw [eS] at g1; rw [ev] at g3
      cases g1; cases g3
      exact ⟨(hΓ i).1, (hΓ i).2, g2, g4⟩
    · rw [ev] at g; cases g
    · rw [ev] at g; cases g

end
end Verif.Lang
