import Verif.MotorSpec
import Verif.Proofs.Run
import Mathlib.Tactic.Linarith
import Mathlib.Tactic.Ring

/-!
Helper lemmas for C70: the motor program, statement by statement.
-/

namespace Verif.Motor
open Spec Lang Run

attribute [local instance] lp64

private theorem ret_bind {α β : Type} (a : α) (f : α → Out β) : (Out.ret a >>= f) = f a := rfl

theorem careful : Careful names := ⟨fun e => by cases e <;> simp [names, defaultException, strictException, looseTrap], fun e => by cases e; decide +kernel⟩

instance (T : PTy names) : Decidable (PTy.Wf T) := inferInstanceAs (Decidable (_ ∧ _ ∧ _ ∧ _))

theorem good : GoodVars Γ := by
  have h : ∀ i : Fin 23, PTy.Wf (Γ i) ∧ NotLit (Γ i).opd := by decide +kernel
  exact h

abbrev u16 : ITy := ⟨false, 1⟩
abbrev u32 : ITy := ⟨false, 2⟩

/-- the type of an intermediate result, in the expressions that may throw -/
abbrev ex (R : ITy) (lo hi : Int) : PTy names := ty .exception_policy (Opd.range R lo hi)
/-- the type of an intermediate result, in the expressions that may not -/
abbrev tr (R : ITy) (lo hi : Int) : PTy names := ty .trap_policy (Opd.range R lo hi)

theorem in_u32 {x : Int} (h : 0 ≤ x ∧ x ≤ 4294967295) : u32.In x := h
theorem in_u16 {x : Int} (h : 0 ≤ x ∧ x ≤ 65535) : u16.In x := h
theorem in_s32 {x : Int} (h : -2147483648 ≤ x ∧ x ≤ 2147483647) : s32.In x := h
theorem in_s16 {x : Int} (h : -32768 ≤ x ∧ x ≤ 32767) : s16.In x := h

theorem lit_wf8 {k : Int} (h : PTy.Wf (litOf s8 k)) (s : Fin 23 → Int) : Ev Γ s (lit s8 k) (litOf s8 k) k := ev_lit h rfl

/-! ### one expression at a time -/

theorem tdiv_nonneg {a b : Int} (ha : 0 ≤ a) : a.tdiv b = a / b := Int.tdiv_eq_ediv_of_nonneg ha

theorem ev_c {s : Fin 23 → Int} {v : Int} (hv : s c = v) (h : 6400 ≤ v ∧ v ≤ 1280000) : Ev Γ s (.var c) c_t v :=
  ev_var good c rfl hv h
theorem ev_i {s : Fin 23 → Int} {v : Int} (hv : s i = v) (h : 0 ≤ v ∧ v ≤ 200000) : Ev Γ s (.var i) step_t v :=
  ev_var good i rfl hv h
theorem ev_m {s : Fin 23 → Int} {v : Int} (hv : s m = v) (h : 0 ≤ v ∧ v ≤ 50000) : Ev Γ s (.var m) position_t v :=
  ev_var good m rfl hv h

/-- `literal(2) * c` -/
theorem ev_2c {s : Fin 23 → Int} {v : Int} (hv : s c = v) (h : 6400 ≤ v ∧ v ≤ 1280000) :
    Ev Γ s (mul (lit s8 2) (.var c)) (ex u32 12800 2560000) (2 * v) :=
  ev_bin careful (lit_wf8 (by decide +kernel) s) (ev_c hv h) (q := ()) (e := .exception_policy) (R := u32) (x := 2) (y := 6400)
    (by decide +kernel) rfl (in_u32 (by omega)) (in_u32 (by omega)) (in_u32 (by omega))

/-- motor3.c:101 -/
theorem ev_rampUp {s : Fin 23 → Int} {v k : Int} (hv : s c = v) (h : 6400 ≤ v ∧ v ≤ 1280000) (hk : s i = k)
    (h' : 0 ≤ k ∧ k ≤ 200000) : Ev Γ s rampUp (ex u32 0 2560000) (2 * v / (4 * k + 1)) := by
  have e1 : Ev Γ s (mul (lit s8 4) (.var i)) (ex u32 0 800000) (4 * k) :=
    ev_bin careful (lit_wf8 (by decide +kernel) s) (ev_i hk h') (q := ()) (e := .exception_policy) (R := u32) (x := 4) (y := 0)
      (by decide +kernel) rfl (in_u32 (by omega)) (in_u32 (by omega)) (in_u32 (by omega))
  have e2 : Ev Γ s (add (mul (lit s8 4) (.var i)) (lit s8 1)) (ex u32 1 800001) (4 * k + 1) :=
    ev_bin careful e1 (lit_wf8 (by decide +kernel) s) (q := ()) (e := .exception_policy) (R := u32) (x := 0) (y := 1)
      (by decide +kernel) rfl (in_u32 (by omega)) (in_u32 (by omega)) (in_u32 (by omega))
  have b1 : 0 ≤ 2 * v / (4 * k + 1) := Int.ediv_nonneg (by omega) (by omega)
  have b2 : 2 * v / (4 * k + 1) ≤ 2 * v := Int.ediv_le_self _ (by omega)
  refine ev_bin careful (ev_2c hv h) e2 (q := ()) (e := .exception_policy) (R := u32) (x := 12800) (y := 1)
    (by decide +kernel) ?_ (in_u32 (by omega)) (in_u32 (by omega)) (in_u32 (by omega))
  simp only [imath]
  rw [if_neg (by omega), tdiv_nonneg (by omega)]

/-- `m - i` -/
theorem ev_mi {s : Fin 23 → Int} {k l : Int} (hk : s i = k) (hl : s m = l) (h : 0 ≤ k ∧ k ≤ l ∧ l ≤ 50000) :
    Ev Γ s (sub (.var m) (.var i)) (ex u32 0 50000) (l - k) :=
  ev_bin careful (ev_m hl (by omega)) (ev_i hk (by omega)) (q := ()) (e := .exception_policy) (R := u32) (x := 0) (y := 0)
      (by decide +kernel) rfl (in_u32 (by omega)) (in_u32 (by omega)) (in_u32 (by omega))

/-- motor3.c:130 -/
theorem ev_rampDown {s : Fin 23 → Int} {v k l : Int} (hv : s c = v) (h : 6400 ≤ v ∧ v ≤ 1280000) (hk : s i = k) (hl : s m = l)
    (h' : 0 ≤ k ∧ k < l ∧ l ≤ 50000) :
    Ev Γ s rampDown (ex u32 6400 4294967295) (v + 2 * v / (4 * (l - k) - 1)) := by
  have e1 : Ev Γ s (mul (lit s8 4) (sub (.var m) (.var i))) (ex u32 0 200000) (4 * (l - k)) :=
    ev_bin careful (lit_wf8 (by decide +kernel) s) (ev_mi hk hl (by omega)) (q := ()) (e := .exception_policy) (R := u32)
      (x := 4) (y := 0) (by decide +kernel) rfl (in_u32 (by omega)) (in_u32 (by omega)) (in_u32 (by omega))
  have e2 : Ev Γ s (sub (mul (lit s8 4) (sub (.var m) (.var i))) (lit s8 1)) (ex u32 0 199999) (4 * (l - k) - 1) :=
    ev_bin careful e1 (lit_wf8 (by decide +kernel) s) (q := ()) (e := .exception_policy) (R := u32) (x := 4) (y := 1)
      (by decide +kernel) rfl (in_u32 (by omega)) (in_u32 (by omega)) (in_u32 (by omega))
  have b1 : 0 ≤ 2 * v / (4 * (l - k) - 1) := Int.ediv_nonneg (by omega) (by omega)
  have b2 : 2 * v / (4 * (l - k) - 1) ≤ 2 * v := Int.ediv_le_self _ (by omega)
  have e3 : Ev Γ s (div (mul (lit s8 2) (.var c)) (sub (mul (lit s8 4) (sub (.var m) (.var i))) (lit s8 1)))
      (ex u32 0 4294967295) (2 * v / (4 * (l - k) - 1)) := by
    refine ev_bin careful (ev_2c hv h) e2 (q := ()) (e := .exception_policy) (R := u32) (x := 12800) (y := 1)
      (by decide +kernel) ?_ (in_u32 (by omega)) (in_u32 (by omega)) (in_u32 (by omega))
    simp only [imath]
    rw [if_neg (by omega), tdiv_nonneg (by omega)]
  exact ev_bin careful (ev_c hv h) e3 (q := ()) (e := .exception_policy) (R := u32) (x := 6400) (y := 0)
      (by decide +kernel) rfl (in_u32 (by omega)) (in_u32 (by omega)) (in_u32 (by omega))

theorem ev_ccpr {s : Fin 23 → Int} {v : Int} (hv : s ccpr = v) (h : 0 ≤ v ∧ v ≤ 4294967295) : Ev Γ s (.var ccpr) ccpr_t v :=
  ev_var good ccpr rfl hv h

theorem land_nat {a b : Int} (ha : 0 ≤ a) (hb : 0 ≤ b) : a.land b = ((a.toNat &&& b.toNat : Nat) : Int) := by
  obtain ⟨m, rfl⟩ := Int.eq_ofNat_of_zero_le ha
  obtain ⟨n, rfl⟩ := Int.eq_ofNat_of_zero_le hb
  rfl

theorem lor_nat {a b : Int} (ha : 0 ≤ a) (hb : 0 ≤ b) : a.lor b = ((a.toNat ||| b.toNat : Nat) : Int) := by
  obtain ⟨m, rfl⟩ := Int.eq_ofNat_of_zero_le ha
  obtain ⟨n, rfl⟩ := Int.eq_ofNat_of_zero_le hb
  rfl

/-- a bitwise and with a mask of low bits -/
theorem and_mask (x : Nat) (n : Nat) : x &&& (2 ^ n - 1) = x % 2 ^ n := Nat.and_two_pow_sub_one_eq_mod x n

/-- motor3.c:142 -/
theorem ev_nextCcpr {s : Fin 23 → Int} {v w : Int} (hv : s c = v) (h : 6400 ≤ v ∧ v ≤ 1280000) (hw : s ccpr = w)
    (h' : 0 ≤ w ∧ w ≤ 16777215) : Ev Γ s nextCcpr (ex u32 0 16777215) ((w + v) % 16777216) := by
  have e1 : Ev Γ s (add (.var ccpr) (.var c)) (ex u32 6400 4294967295) (w + v) :=
    ev_bin careful (ev_ccpr hw (by omega)) (ev_c hv h) (q := ()) (e := .exception_policy) (R := u32) (x := 0) (y := 6400)
      (by decide +kernel) rfl (in_u32 (by omega)) (in_u32 (by omega)) (in_u32 (by omega))
  refine ev_bin careful (ev_lit (L := litOf s32 0xffffff) (k := 16777215) (by decide +kernel) rfl) e1 (q := ())
    (e := .exception_policy) (R := u32) (x := 16777215) (y := 6400) (by decide +kernel) ?_
    (in_u32 (by omega)) (in_u32 (by omega)) (in_u32 (by omega))
  simp only [imath]
  rw [land_nat (by omega) (by omega), Nat.and_comm]
  have := and_mask (w + v).toNat 24
  rw [show (2 : Nat) ^ 24 - 1 = (16777215 : Int).toNat by decide] at this
  rw [this]
  congr 1
  omega

/-- motor3.c:143 -/
theorem nextPhase_val {s : Fin 23 → Int} {a b : Int} (ha : s phase_ix = a) (h : 0 ≤ a ∧ a ≤ 3) (hb : s d = b)
    (h' : -1 ≤ b ∧ b ≤ 1) : assignVal Γ s phase_ix nextPhase = .ret ((a + b) % 4) := by
  have key : ∀ a ∈ ([0, 1, 2, 3] : List Int), ∀ b ∈ ([-1, 0, 1] : List Int),
      assignVal Γ (fun j => if j = phase_ix then a else if j = d then b else 0) phase_ix nextPhase = .ret ((a + b) % 4) := by
    decide +kernel
  have := key a (by simp; omega) b (by simp; omega)
  rw [← this, ← ha, ← hb]
  rfl

/-- example93.cpp:245 -/
theorem ev_toMicroseconds {s : Fin 23 → Int} {v : Int} (hv : s t = v) (h : 0 ≤ v ∧ v ≤ 4294967167) :
    Ev Γ s toMicroseconds (ex u32 0 16777215) ((v + 128) / 256) := by
  have e0 : Ev Γ s (.var t) ccpr_t v := ev_var good t rfl hv (show 0 ≤ v ∧ v ≤ 4294967295 by omega)
  have e1 : Ev Γ s (add (.var t) (lit s16 128)) (ex u32 128 4294967295) (v + 128) :=
    ev_bin careful e0 (ev_lit (L := litOf s16 128) (k := 128) (by decide +kernel) rfl) (q := ()) (e := .exception_policy)
      (R := u32) (x := 0) (y := 128) (by decide +kernel) rfl (in_u32 (by omega)) (in_u32 (by omega)) (in_u32 (by omega))
  refine ev_bin careful e1 (ev_lit (L := litOf s16 256) (k := 256) (by decide +kernel) rfl) (q := ()) (e := .exception_policy)
      (R := u32) (x := 128) (y := 256) (by decide +kernel) ?_ (in_u32 (by omega)) (in_u32 (by omega)) (in_u32 (by omega))
  simp only [imath]
  rw [if_neg (by omega), tdiv_nonneg (by omega)]

/-- `ccpr >> literal(8)`: no exception is possible, so that the policy (which ignores an excessive shift) does not matter -/
theorem shr8 {w : Int} (h : 0 ≤ w ∧ w ≤ 4294967295) : pBinVal .shr ccpr_t (litOf s8 8) w 8 = .ret (w / 256) := by
  have e : pBinVal .shr ccpr_t (litOf s8 8) w 8 = runPlain opShr u32 w 8 := rfl
  have c1 : conv u32 w = w := conv_of_in (in_u32 (by omega))
  have c2 : conv (promote u32) w = w := c1
  have c3 : conv u32 8 = 8 := by decide
  have c4 : conv (promote u32) 8 = 8 := by decide
  have c5 : conv u32 (w / 256) = w / 256 := conv_of_in (in_u32 (by omega))
  rw [e]
  simp only [runPlain, opShr, cShr, c1, c2, c3, c4]
  rw [if_neg (by decide)]
  simp only [ret_bind]
  rw [show (2 : Int) ^ (8 : Int).toNat = 256 by decide, c5]

theorem ev_lowByte {s : Fin 23 → Int} {e : Ex} {w : Int} (h : Ev Γ s e (ex u32 0 4294967295) w) :
    Ev Γ s (band (lit s16 0xff) e) (ex u32 0 255) (w % 256) := by
  have hw : 0 ≤ w ∧ w ≤ 4294967295 := h.has
  refine ev_bin careful (ev_lit (L := litOf s16 0xff) (k := 255) (by decide +kernel) rfl) h (q := ())
    (e := .exception_policy) (R := u32) (x := 255) (y := 0) (by decide +kernel) ?_
    (in_u32 (by omega)) (in_u32 (by omega)) (in_u32 (by omega))
  simp only [imath]
  rw [land_nat (by omega) (by omega), Nat.and_comm]
  have := and_mask w.toNat 8
  rw [show (2 : Nat) ^ 8 - 1 = (255 : Int).toNat by decide] at this
  rw [this]
  congr 1
  omega

/-! ### one statement at a time -/

/-- the two states differ at most in the listed variables -/
def Same (l : List (Fin 23)) (s s' : LState 23) : Prop :=
  s'.inp = s.inp ∧ s'.out = s.out ∧ s'.caught = s.caught ∧ ∀ j, j ∉ l → s'.st j = s.st j

theorem Same.refl (l : List (Fin 23)) (s : LState 23) : Same l s s := ⟨rfl, rfl, rfl, fun _ _ => rfl⟩

theorem Same.st {l : List (Fin 23)} {s s' : LState 23} (h : Same l s s') {j : Fin 23} (hj : j ∉ l) : s'.st j = s.st j := h.2.2.2 j hj

theorem Same.write {l : List (Fin 23)} {s s' : LState 23} (h : Same l s s') {j : Fin 23} {v : Int} (hj : j ∈ l) :
    Same l s (s'.write j v) := by
  refine ⟨h.1, h.2.1, h.2.2.1, fun k hk => ?_⟩
  have : k ≠ j := fun e => hk (e ▸ hj)
  simp only [LState.write, if_neg this]
  exact h.st hk

theorem Same.trans {l : List (Fin 23)} {s s1 s2 : LState 23} (h1 : Same l s s1) (h2 : Same l s1 s2) : Same l s s2 :=
  ⟨h2.1.trans h1.1, h2.2.1.trans h1.2.1, h2.2.2.1.trans h1.2.2.1, fun j hj => (h2.st hj).trans (h1.st hj)⟩

theorem Same.mono {l l' : List (Fin 23)} {s s' : LState 23} (h : Same l s s') (hl : l ⊆ l') : Same l' s s' :=
  ⟨h.1, h.2.1, h.2.2.1, fun j hj => h.st fun hh => hj (hl hh)⟩

theorem write_eq (s : LState 23) (j : Fin 23) (v : Int) : (s.write j v).st j = v := by simp [LState.write]
theorem write_ne (s : LState 23) {j k : Fin 23} (v : Int) (h : k ≠ j) : (s.write j v).st k = s.st k := by
  simp [LState.write, h]

theorem winding_cases (a : Int) : winding a ∈ ([0x909, 0x908, 0x808, 0x809] : List Int) := by
  unfold winding
  split
  · simp
  · split
    · simp
    · split <;> simp

theorem assert_ends {s : LState 23} {e : LCond names 23} (h : e.eval Γ s.st = .ret true) : Ends Γ (assert e) s (.ret ()) s := by
  refine ends_while_false ?_
  simp only [LCond.eval, h, ret_bind]
  rfl

theorem and_eval {s : Fin 23 → Int} {a b : LCond names 23} {v : Bool} (ha : a.eval Γ s = .ret true) (hb : b.eval Γ s = .ret v) :
    (LCond.and a b).eval Γ s = .ret v := by
  simp only [LCond.eval, ha, hb, ret_bind, if_true]

/-- a comparison of `ix` -/
theorem ix_eq {s : Fin 23 → Int} {a : Int} (ha : s ix = a) (h : 0 ≤ a ∧ a ≤ 3) (k : Int) (hk : k ∈ ([0, 1, 2] : List Int)) :
    (LCond.cmp .eq (.var ix) (.const ⟨true, 3⟩ k) : LCond names 23).eval Γ s = .ret (decide (a = k)) := by
  have key : ∀ k ∈ ([0, 1, 2] : List Int), ∀ a ∈ ([0, 1, 2, 3] : List Int),
      (LCond.cmp .eq (.var ix) (.const ⟨true, 3⟩ k) : LCond names 23).eval Γ (fun _ => a) = .ret (decide (a = k)) := by
    decide +kernel
  rw [← key k hk a (by simp; omega), ← ha]
  rfl

theorem lookup_ends {s : LState 23} {a : Int} (ha : s.st phase_ix = a) (h : 0 ≤ a ∧ a ≤ 3) :
    Ends Γ lookup s (.ret ()) ((s.write ix a).write phase (winding a)) := by
  have e1 : Ends Γ (.assign ix (.var phase_ix)) s (.ret ()) (s.write ix a) := by
    refine ends_assign ?_
    have key : ∀ a ∈ ([0, 1, 2, 3] : List Int), assignVal Γ (fun _ => a) ix (.var phase_ix) = .ret a := by decide +kernel
    rw [← key a (by simp; omega), ← ha]
    rfl
  refine ends_seq e1 ?_
  have hx : (s.write ix a).st ix = a := write_eq ..
  refine ends_ite (ix_eq hx h 0 (by simp)) ?_
  by_cases h0 : a = 0
  · rw [if_pos (by simp [h0]), winding, if_pos h0]; exact ends_assign rfl
  · rw [if_neg (by simp [h0]), winding, if_neg h0]
    refine ends_ite (ix_eq hx h 1 (by simp)) ?_
    by_cases h1 : a = 1
    · rw [if_pos (by simp [h1]), if_pos h1]; exact ends_assign rfl
    · rw [if_neg (by simp [h1]), if_neg h1]
      refine ends_ite (ix_eq hx h 2 (by simp)) ?_
      by_cases h2 : a = 2
      · rw [if_pos (by simp [h2]), if_pos h2]; exact ends_assign rfl
      · rw [if_neg (by simp [h2]), if_neg h2]; exact ends_assign rfl

/-- what `update` writes -/
abbrev outs : List (Fin 23) := [ix, phase, CCP1CON, CCP2CON, CCPR1H, CCPR1L]

theorem update_ends {s : LState 23} {a w : Int} (ha : s.st phase_ix = a) (h : 0 ≤ a ∧ a ≤ 3) (hw : s.st ccpr = w)
    (h' : 0 ≤ w ∧ w ≤ 16777215) : ∃ s', Ends Γ update s (.ret ()) s' ∧ Same outs s s' ∧ Regs s' a w := by
  let s1 := (s.write ix a).write phase (winding a)
  let s2 := s1.write CCP1CON (winding a % 256)
  let s3 := s2.write CCP2CON (winding a / 256)
  let s4 := s3.write CCPR1H (w / 256 % 256)
  let s5 := s4.write CCPR1L (w % 256)
  have hp1 : s1.st phase = winding a := write_eq ..
  have hp2 : s2.st phase = winding a := by rw [← hp1]; exact write_ne _ _ (by decide)
  have hw3 : s3.st ccpr = w := by
    rw [← hw]; simp only [s3, s2, s1, LState.write]; rfl
  have hw4 : s4.st ccpr = w := by rw [← hw3]; exact write_ne _ _ (by decide)
  have e2 : Ends Γ (.assign CCP1CON (band (.var phase) (lit s16 0xff))) s1 (.ret ()) s2 := by
    refine ends_assign ?_
    have key : ∀ p ∈ ([0x909, 0x908, 0x808, 0x809] : List Int),
        assignVal Γ (fun _ => p) CCP1CON (band (.var phase) (lit s16 0xff)) = .ret (p % 256) := by decide +kernel
    rw [← key _ (winding_cases a), ← hp1]
    rfl
  have e3 : Ends Γ (.assign CCP2CON (.bin .shr (.var phase) (lit s8 8))) s2 (.ret ()) s3 := by
    refine ends_assign ?_
    have key : ∀ p ∈ ([0x909, 0x908, 0x808, 0x809] : List Int),
        assignVal Γ (fun _ => p) CCP2CON (.bin .shr (.var phase) (lit s8 8)) = .ret (p / 256) := by decide +kernel
    rw [← key _ (winding_cases a), ← hp2]
    rfl
  have e4 : Ends Γ (.assign CCPR1H (band (lit s16 0xff) (.bin .shr (.var ccpr) (lit s8 8)))) s3 (.ret ()) s4 := by
    have f1 : Ev Γ s3.st (.bin .shr (.var ccpr) (lit s8 8)) (ex u32 0 16777215) (w / 256) :=
      ev_bin' (ev_ccpr hw3 (by omega)) (lit_wf8 (by decide +kernel) _) (by decide +kernel) (shr8 (by omega)) (by decide +kernel)
        (show 0 ≤ w / 256 ∧ w / 256 ≤ 16777215 by omega)
    have f2 : Ev Γ s3.st (band (lit s16 0xff) (.bin .shr (.var ccpr) (lit s8 8))) (ex u32 0 255) (w / 256 % 256) := by
      refine ev_bin careful (ev_lit (L := litOf s16 0xff) (k := 255) (by decide +kernel) rfl) f1 (q := ())
        (e := .exception_policy) (R := u32) (x := 255) (y := 0) (by decide +kernel) ?_
        (in_u32 (by omega)) (in_u32 (by omega)) (in_u32 (by omega))
      simp only [imath]
      rw [land_nat (by omega) (by omega), Nat.and_comm]
      have := and_mask (w / 256).toNat 8
      rw [show (2 : Nat) ^ 8 - 1 = (255 : Int).toNat by decide] at this
      rw [this]
      congr 1
      omega
    exact assign_of careful good f2 (S := pic_register_t) rfl (x := 0) (by decide +kernel)
      (show 0 ≤ w / 256 % 256 ∧ w / 256 % 256 ≤ 255 by omega)
  have e5 : Ends Γ (.assign CCPR1L (band (lit s16 0xff) (.var ccpr))) s4 (.ret ()) s5 :=
    assign_of careful good (ev_lowByte (ev_ccpr hw4 (by omega))) (S := pic_register_t) rfl (x := 0) (by decide +kernel)
      (show 0 ≤ w % 256 ∧ w % 256 ≤ 255 by omega)
  refine ⟨s5, ends_seq (lookup_ends ha h) (ends_seq e2 (ends_seq e3 (ends_seq e4 e5))), ?_, ⟨rfl, rfl, rfl, rfl⟩⟩
  exact (((((((Same.refl outs s).write (by decide)).write (by decide)).write (by decide)).write (by decide)).write
    (by decide)).write (by decide))

/-! ### the interrupt handler -/

/-- what the handler relies on -/
structure Live (s : LState 23) : Prop where
  ph : 0 ≤ s.st phase_ix ∧ s.st phase_ix ≤ 3
  dir : s.st d = 1 ∨ s.st d = -1
  cc : 0 ≤ s.st ccpr ∧ s.st ccpr ≤ 16777215
  cr : 6400 ≤ s.st c ∧ s.st c ≤ 1280000
  pos : 0 ≤ s.st motor_position ∧ s.st motor_position ≤ 50000
  mr : 0 ≤ s.st m ∧ s.st m ≤ 50000
  m2r : 0 ≤ s.st m2 ∧ s.st m2 ≤ 50000
  ir : 0 ≤ s.st i ∧ s.st i ≤ 200000

theorem cmp_c_le {s : Fin 23 → Int} {v : Int} (hv : s c = v) (h : 6400 ≤ v ∧ v ≤ 1280000) :
    (LCond.cmp .le (.var c) C0).eval Γ s = .ret true := by
  rw [cmp_of careful (ev_c hv h) (ev_lit (L := litOf s32 1280000) (k := 1280000) (by decide +kernel) rfl) (q := ())
    (e := .exception_policy) (R := u32) (R' := u32) (x := 6400) (y := 1280000) (by decide +kernel)
    (in_u32 (by omega)) (in_u32 (by omega)) (in_u32 (by omega)) (in_u32 (by omega))]
  simp only [rel]
  congr 1
  simp; omega

theorem cmp_c_ge {s : Fin 23 → Int} {v : Int} (hv : s c = v) (h : 6400 ≤ v ∧ v ≤ 1280000) :
    (LCond.cmp .ge (.var c) C_MIN).eval Γ s = .ret true := by
  rw [cmp_of careful (ev_c hv h) (ev_lit (L := litOf s16 6400) (k := 6400) (by decide +kernel) rfl) (q := ())
    (e := .exception_policy) (R := u32) (R' := u32) (x := 6400) (y := 6400) (by decide +kernel)
    (in_u32 (by omega)) (in_u32 (by omega)) (in_u32 (by omega)) (in_u32 (by omega))]
  simp only [rel]
  congr 1
  simp; omega

theorem cmp_c_lt {s : Fin 23 → Int} {v : Int} (hv : s c = v) (h : 6400 ≤ v ∧ v ≤ 1280000) :
    (LCond.cmp .lt (.var c) C_MIN).eval Γ s = .ret false := by
  rw [cmp_of careful (ev_c hv h) (ev_lit (L := litOf s16 6400) (k := 6400) (by decide +kernel) rfl) (q := ())
    (e := .exception_policy) (R := u32) (R' := u32) (x := 6400) (y := 6400) (by decide +kernel)
    (in_u32 (by omega)) (in_u32 (by omega)) (in_u32 (by omega)) (in_u32 (by omega))]
  simp only [rel]
  congr 1
  simp; omega

theorem cmp_x_gt {s : Fin 23 → Int} {v : Int} (hv : s x = v) (h : 0 ≤ v ∧ v ≤ 4294967295) :
    (LCond.cmp .gt (.var x) C0).eval Γ s = .ret (decide (1280000 < v)) := by
  rw [cmp_of careful (ev_var good x rfl hv (show temp_t.opd.Has v from h)) (ev_lit (L := litOf s32 1280000) (k := 1280000)
    (by decide +kernel) rfl) (q := ()) (e := .exception_policy) (R := u32) (R' := u32) (x := 6400) (y := 1280000)
    (by decide +kernel) (in_u32 (by omega)) (in_u32 (by omega)) (in_u32 (by omega)) (in_u32 (by omega))]
  simp only [rel]

theorem cmp_i_m {s : Fin 23 → Int} {k l : Int} (hk : s i = k) (hl : s m = l) (h : 0 ≤ k ∧ k ≤ 200000) (h' : 0 ≤ l ∧ l ≤ 50000) :
    (LCond.cmp .eq (.var i) (.var m)).eval Γ s = .ret (decide (k = l)) := by
  rw [cmp_of careful (ev_i hk h) (ev_m hl h') (q := ()) (e := .exception_policy) (R := u32) (R' := u32) (x := 0) (y := 0)
    (by decide +kernel) (in_u32 (by omega)) (in_u32 (by omega)) (in_u32 (by omega)) (in_u32 (by omega))]
  simp only [rel]

theorem cmp_i_m2 {s : Fin 23 → Int} {k l : Int} (hk : s i = k) (hl : s m2 = l) (h : 0 ≤ k ∧ k ≤ 200000)
    (h' : 0 ≤ l ∧ l ≤ 50000) : (LCond.cmp .eq (.var i) (.var m2)).eval Γ s = .ret (decide (k = l)) := by
  rw [cmp_of careful (ev_i hk h) (ev_var good m2 rfl hl (show position_t.opd.Has l from h')) (q := ())
    (e := .exception_policy) (R := u32) (R' := u32) (x := 0) (y := 0) (by decide +kernel) (in_u32 (by omega))
    (in_u32 (by omega)) (in_u32 (by omega)) (in_u32 (by omega))]
  simp only [rel]

/-- a comparison of the state -/
theorem sts_eq {s : Fin 23 → Int} {a : Int} (ha : s ramp_sts = a) (h : 0 ≤ a ∧ a ≤ 3) (k : Int)
    (hk : k ∈ ([0, 1, 2, 3] : List Int)) :
    (LCond.cmp .eq (.var ramp_sts) (enum k) : LCond names 23).eval Γ s = .ret (decide (a = k)) := by
  have key : ∀ k ∈ ([0, 1, 2, 3] : List Int), ∀ a ∈ ([0, 1, 2, 3] : List Int),
      (LCond.cmp .eq (.var ramp_sts) (enum k) : LCond names 23).eval Γ (fun _ => a) = .ret (decide (a = k)) := by
    decide +kernel
  rw [← key k hk a (by simp; omega), ← ha]
  rfl

theorem busy_eval {s : Fin 23 → Int} {a : Int} (ha : s ramp_sts = a) (h : 0 ≤ a ∧ a ≤ 3) :
    busy.eval Γ s = .ret (decide (a ≠ 0)) := by
  have key : ∀ a ∈ ([0, 1, 2, 3] : List Int), busy.eval Γ (fun _ => a) = .ret (decide (a ≠ 0)) := by decide +kernel
  rw [← key a (by simp; omega), ← ha]
  rfl

/-- what the end of the handler writes -/
abbrev endOuts : List (Fin 23) := ccpr :: phase_ix :: outs

theorem isrEnd_ends {s : LState 23} (h : Live s) : ∃ s', Ends Γ isrEnd s (.ret ()) s' ∧ Same endOuts s s' ∧
    s'.st ccpr = (s.st ccpr + s.st c) % 16777216 ∧ s'.st phase_ix = (s.st phase_ix + s.st d) % 4 ∧
    Regs s' (s'.st phase_ix) (s'.st ccpr) := by
  have hc := h.cr
  have hw := h.cc
  let w := (s.st ccpr + s.st c) % 16777216
  let a := (s.st phase_ix + s.st d) % 4
  have e1 : Ends Γ (assert (.and (.cmp .le (.var c) C0) (.cmp .ge (.var c) C_MIN))) s (.ret ()) s := by
    exact assert_ends (and_eval (cmp_c_le rfl hc) (cmp_c_ge rfl hc))
  have e2 : Ends Γ (.assign ccpr nextCcpr) s (.ret ()) (s.write ccpr w) :=
    assign_of careful good (ev_nextCcpr rfl hc rfl hw) (S := ccpr_t) rfl (x := 0) (by decide +kernel)
      (show 0 ≤ w ∧ w ≤ 4294967295 by omega)
  have e3 : Ends Γ (.assign phase_ix nextPhase) (s.write ccpr w) (.ret ()) ((s.write ccpr w).write phase_ix a) := by
    refine ends_assign (nextPhase_val ?_ h.ph ?_ ?_)
    · exact write_ne _ _ (by decide)
    · exact write_ne _ _ (by decide)
    · rcases h.dir with h | h <;> rw [h] <;> decide
  obtain ⟨s', e4, hs, hr⟩ := update_ends (s := (s.write ccpr w).write phase_ix a) (a := a) (w := w) (write_eq ..)
    (by omega) ((write_ne _ _ (by decide)).trans (write_eq ..)) (by omega)
  have hsame : Same endOuts s ((s.write ccpr w).write phase_ix a) :=
    ((Same.refl endOuts s).write (by decide)).write (by decide)
  have q1 : s'.st ccpr = w := by rw [hs.st (by decide)]; rfl
  have q2 : s'.st phase_ix = a := by rw [hs.st (by decide)]; rfl
  refine ⟨s', ends_seq e1 (ends_seq e2 (ends_seq e3 e4)), hsame.trans (hs.mono (by decide)), q1, q2, ?_⟩
  rw [q1, q2]
  exact hr

/-- the end of the handler keeps the conditions -/
theorem Live.after {s s' : LState 23} (h : Live s) (hs : Same endOuts s s') (hw : s'.st ccpr = (s.st ccpr + s.st c) % 16777216)
    (ha : s'.st phase_ix = (s.st phase_ix + s.st d) % 4) : Live s' := by
  refine ⟨by omega, ?_, by omega, ?_, ?_, ?_, ?_, ?_⟩
  · rw [hs.st (by decide)]; exact h.dir
  · rw [hs.st (by decide)]; exact h.cr
  · rw [hs.st (by decide)]; exact h.pos
  · rw [hs.st (by decide)]; exact h.mr
  · rw [hs.st (by decide)]; exact h.m2r
  · rw [hs.st (by decide)]; exact h.ir

/-- what the handler writes after counting the step -/
abbrev caseOuts : List (Fin 23) := c :: x :: ramp_sts :: CCP1IE :: endOuts

/-- the registers show the phase and the compare value -/
def Shown (s : LState 23) : Prop := Regs s (s.st phase_ix) (s.st ccpr)

/-- the delay after step `k` of `l` when slowing down -/
def slower (v k l : Int) : Int := min (v + 2 * v / (4 * (l - k) - 1)) 1280000

theorem slower_range {v k l : Int} (h : 6400 ≤ v) (hk : k < l) : 6400 ≤ slower v k l ∧ slower v k l ≤ 1280000 := by
  have : 0 ≤ 2 * v / (4 * (l - k) - 1) := Int.ediv_nonneg (by omega) (by omega)
  unfold slower
  omega

/-- the last step -/
theorem caseDown_stop {s : LState 23} (h : Live s) (hi : s.st i = s.st m) : ∃ s', Ends Γ caseDown s (.ret ()) s' ∧
    Same [ramp_sts, CCP1IE] s s' ∧ s'.st ramp_sts = 0 ∧ s'.st CCP1IE = 0 := by
  refine ⟨(s.write ramp_sts 0).write CCP1IE 0, ?_, ((Same.refl _ s).write (by decide)).write (by decide), rfl, rfl⟩
  refine ends_ite (cmp_i_m rfl rfl h.ir h.mr) ?_
  rw [if_pos (by simp [hi])]
  exact ends_seq (ends_assign rfl) (ends_assign rfl)

/-- a step of slowing down -/
theorem caseDown_go {s : LState 23} (h : Live s) (hi : s.st i < s.st m) : ∃ s', Ends Γ caseDown s (.ret ()) s' ∧
    Same (c :: x :: endOuts) s s' ∧ s'.st c = slower (s.st c) (s.st i) (s.st m) ∧ Live s' ∧ Shown s' ∧ s'.st phase_ix = (s.st phase_ix + s.st d) % 4 := by
  have hm := h.mr
  have hc := h.cr
  have hir := h.ir
  have hr := slower_range hc.1 hi
  let v := s.st c + 2 * s.st c / (4 * (s.st m - s.st i) - 1)
  let c' := slower (s.st c) (s.st i) (s.st m)
  have b1 : 0 ≤ 2 * s.st c / (4 * (s.st m - s.st i) - 1) := Int.ediv_nonneg (by omega) (by omega)
  have b2 : 2 * s.st c / (4 * (s.st m - s.st i) - 1) ≤ 2 * s.st c := Int.ediv_le_self _ (by omega)
  have hv : 6400 ≤ v ∧ v ≤ 4294967295 := by omega
  have e1 : Ends Γ (.assign x rampDown) s (.ret ()) (s.write x v) :=
    assign_of careful good (ev_rampDown rfl hc rfl rfl (by omega)) (S := temp_t) rfl (x := 6400) (by decide +kernel)
      (show 0 ≤ v ∧ v ≤ 4294967295 by omega)
  have hx : (s.write x v).st x = v := write_eq ..
  have e2 : Ends Γ (.ite (.cmp .gt (.var x) C0) (.assign c (.cast temp_t C0)) (.assign c (.var x))) (s.write x v) (.ret ())
      ((s.write x v).write c c') := by
    refine ends_ite (cmp_x_gt hx (by omega)) ?_
    by_cases g : 1280000 < v
    · rw [if_pos (by simpa using g), show c' = 1280000 by simp only [c', slower]; omega]
      exact ends_assign rfl
    · rw [if_neg (by simpa using g), show c' = v by simp only [c', slower]; omega]
      exact assign_of careful good (ev_var good x rfl hx (show temp_t.opd.Has v from (show 0 ≤ v ∧ v ≤ 4294967295 by omega))) (S := c_t) rfl
        (x := 6400) (by decide +kernel) (show 6400 ≤ v ∧ v ≤ 1280000 by omega)
  have h2 : Live ((s.write x v).write c c') := ⟨h.ph, h.dir, h.cc, hr, h.pos, h.mr, h.m2r, h.ir⟩
  obtain ⟨s', e3, hs, q1, q2, q3⟩ := isrEnd_ends h2
  refine ⟨s', ?_, (((Same.refl _ s).write (by decide)).write (by decide)).trans (hs.mono (by decide)), ?_, h2.after hs q1 q2, q3, q2⟩
  · refine ends_ite (cmp_i_m rfl rfl h.ir h.mr) ?_
    rw [if_neg (by simp; omega)]
    exact ends_seq e1 (ends_seq e2 e3)
  · rw [hs.st (by decide)]; rfl

/-- the delay after step `k` when speeding up -/
def faster (v k : Int) : Int := v - 2 * v / (4 * k + 1)

/-- a step of speeding up -/
theorem caseUp_go {s : LState 23} (h : Live s) (hi : s.st i ≠ s.st m2) (hf : 6400 ≤ faster (s.st c) (s.st i)) :
    ∃ s', Ends Γ caseUp s (.ret ()) s' ∧
    Same (c :: endOuts) s s' ∧ s'.st c = faster (s.st c) (s.st i) ∧ Live s' ∧ Shown s' ∧ s'.st phase_ix = (s.st phase_ix + s.st d) % 4 := by
  have hc := h.cr
  have hir := h.ir
  have b1 : 0 ≤ 2 * s.st c / (4 * s.st i + 1) := Int.ediv_nonneg (by omega) (by omega)
  have b2 : 2 * s.st c / (4 * s.st i + 1) ≤ 2 * s.st c := Int.ediv_le_self _ (by omega)
  let v := faster (s.st c) (s.st i)
  have hv : v = s.st c - 2 * s.st c / (4 * s.st i + 1) := rfl
  have e1 : Ends Γ (.opAssign (.ar .sub) c rampUp) s (.ret ()) (s.write c v) := by
    refine ends_opAssign (opAssign_val careful good (T := c_t) rfl hc rfl (ev_rampUp rfl hc rfl hir) (q := ())
      (e := .exception_policy) (R := u32) (S := ex u32 0 1280000) (x := 6400) (y := 0) (z := 6400) (by decide +kernel)
      (by decide +kernel) rfl (in_u32 (by omega)) (in_u32 (by omega)) (in_u32 (by omega)) (show 6400 ≤ v ∧ v ≤ 1280000 by omega))
  have h2 : Live (s.write c v) := ⟨h.ph, h.dir, h.cc, (show 6400 ≤ v ∧ v ≤ 1280000 by omega), h.pos, h.mr, h.m2r, h.ir⟩
  obtain ⟨s', e3, hs, q1, q2, q3⟩ := isrEnd_ends h2
  refine ⟨s', ?_, ((Same.refl _ s).write (by decide)).trans (hs.mono (by decide)), ?_, h2.after hs q1 q2, q3, q2⟩
  · refine ends_ite (cmp_i_m2 rfl rfl h.ir h.m2r) ?_
    rw [if_neg (by simpa using hi)]
    refine ends_seq e1 (ends_ite (cmp_c_lt (write_eq ..) h2.cr) ?_)
    exact e3
  · rw [hs.st (by decide)]; rfl

/-- half way -/
theorem caseUp_turn {s s' : LState 23} (h : Live s) (hi : s.st i = s.st m2)
    (e : Ends Γ caseDown (s.write ramp_sts 3) (.ret ()) s') : Ends Γ caseUp s (.ret ()) s' := by
  refine ends_ite (cmp_i_m2 rfl rfl h.ir h.m2r) ?_
  rw [if_pos (by simpa using hi)]
  exact ends_seq (ends_assign rfl) e

/-! ### counting the step -/

theorem dir_lt {s : Fin 23 → Int} (h : s d = 1 ∨ s d = -1) :
    (LCond.cmp .lt (.var d) (.const s32 0) : LCond names 23).eval Γ s = .ret (decide (s d < 0)) := by
  have key : ∀ a ∈ ([1, -1] : List Int),
      (LCond.cmp .lt (.var d) (.const s32 0) : LCond names 23).eval Γ (fun _ => a) = .ret (decide (a < 0)) := by
    decide +kernel
  rw [← key (s d) (by simp; omega)]
  rfl

theorem one (s : Fin 23 → Int) : Ev Γ s (.const tInt 1) (PTy.builtin tInt) 1 := ev_const tInt 1 (by decide)

/-- motor3.c:84-87 -/
theorem position_ends {s : LState 23} (h : Live s) (h' : 0 ≤ s.st motor_position + s.st d ∧ s.st motor_position + s.st d ≤ 50000) :
    Ends Γ (.ite (.cmp .lt (.var d) (.const s32 0)) (.dec motor_position) (.inc motor_position)) s (.ret ())
      (s.write motor_position (s.st motor_position + s.st d)) := by
  refine ends_ite (dir_lt h.dir) ?_
  have hp := h.pos
  rcases h.dir with g | g
  · rw [if_neg (by simp [g])]
    rw [g] at h' ⊢
    exact ends_inc (opAssign_val careful good (T := position_t) rfl h.pos rfl (one _) (q := ()) (e := .exception_policy)
      (R := s32) (S := ex s32 (-2147483648) 2147483647) (x := 0) (y := 1) (z := 0) (by decide +kernel) (by decide +kernel) rfl
      (in_s32 (by omega)) (in_s32 (by omega)) (in_s32 (by omega)) h')
  · rw [if_pos (by simp [g])]
    rw [g] at h' ⊢
    exact ends_dec (opAssign_val careful good (T := position_t) rfl h.pos rfl (one _) (q := ()) (e := .exception_policy)
      (R := s32) (S := ex s32 (-2147483647) 2147483647) (x := 0) (y := 1) (z := 0) (by decide +kernel) (by decide +kernel) rfl
      (in_s32 (by omega)) (in_s32 (by omega)) (in_s32 (by omega)) h')

/-- what the library throws when the motor leaves the range -/
def beyond (dir : Int) : Err := if dir = 1 then .positive_overflow_error else .domain_error

theorem position_throws {s : LState 23} (h : Live s)
    (h' : ¬ (0 ≤ s.st motor_position + s.st d ∧ s.st motor_position + s.st d ≤ 50000)) :
    Ends Γ (.ite (.cmp .lt (.var d) (.const s32 0)) (.dec motor_position) (.inc motor_position)) s (.thrown (beyond (s.st d))) s := by
  refine ends_ite (dir_lt h.dir) ?_
  have hp := h.pos
  rcases h.dir with g | g
  · rw [if_neg (by simp [g])]
    rw [g] at h' ⊢
    have e : s.st motor_position = 50000 := by omega
    refine ends_inc_throw ?_
    have key : opAssignVal Γ (fun _ => 50000) (.ar .add) motor_position (.const tInt 1) = .thrown (beyond 1) := by decide +kernel
    rw [← key, ← e]
    rfl
  · rw [if_pos (by simp [g])]
    rw [g] at h' ⊢
    have e : s.st motor_position = 0 := by omega
    refine ends_dec_throw ?_
    have key : opAssignVal Γ (fun _ => 0) (.ar .sub) motor_position (.const tInt 1) = .thrown (beyond (-1)) := by decide +kernel
    rw [← key, ← e]
    rfl

theorem count_ends {s : LState 23} (h : 0 ≤ s.st i ∧ s.st i + 1 ≤ 200000) :
    Ends Γ (.inc i) s (.ret ()) (s.write i (s.st i + 1)) :=
  ends_inc (opAssign_val careful good (T := step_t) rfl (show 0 ≤ s.st i ∧ s.st i ≤ 200000 by omega) rfl (one _) (q := ())
    (e := .exception_policy) (R := u32) (S := ex u32 0 2147683647) (x := 0) (y := 1) (z := 0) (by decide +kernel)
    (by decide +kernel) rfl (in_u32 (by omega)) (in_u32 (by omega)) (in_u32 (by omega))
    (show 0 ≤ s.st i + 1 ∧ s.st i + 1 ≤ 200000 by omega))

/-- the state in which the handler chooses the case -/
def counted (s : LState 23) : LState 23 :=
  (((s.write t (s.st c)).write us ((s.st c + 128) / 256)).write motor_position (s.st motor_position + s.st d)).write i (s.st i + 1)

theorem delay_ends {s : LState 23} (h : Live s) : Ends Γ (.assign t (.var c)) s (.ret ()) (s.write t (s.st c)) ∧
    Ends Γ (.assign us toMicroseconds) (s.write t (s.st c)) (.ret ())
      ((s.write t (s.st c)).write us ((s.st c + 128) / 256)) := by
  have hc := h.cr
  constructor
  · exact assign_of careful good (ev_c rfl hc) (S := ccpr_t) rfl (x := 6400) (by decide +kernel)
      (show 0 ≤ s.st c ∧ s.st c ≤ 4294967295 by omega)
  · exact assign_of careful good (ev_toMicroseconds (write_eq ..) (by omega)) (S := microseconds) rfl (x := 0) (by decide +kernel)
      (show 0 ≤ (s.st c + 128) / 256 ∧ (s.st c + 128) / 256 ≤ 4294967295 by omega)

theorem live_delay {s : LState 23} (h : Live s) : Live ((s.write t (s.st c)).write us ((s.st c + 128) / 256)) :=
  ⟨h.ph, h.dir, h.cc, h.cr, h.pos, h.mr, h.m2r, h.ir⟩

/-- the motor cannot go on -/
theorem turn_throws {s : LState 23} (h : Live s)
    (h' : ¬ (0 ≤ s.st motor_position + s.st d ∧ s.st motor_position + s.st d ≤ 50000)) :
    ∃ s', Ends Γ turn s (.thrown (beyond (s.st d))) s' ∧ Same [t, us] s s' := by
  refine ⟨(s.write t (s.st c)).write us ((s.st c + 128) / 256), ?_,
    ((Same.refl _ s).write (by decide)).write (by decide)⟩
  exact ends_seq (delay_ends h).1 (ends_seq (delay_ends h).2 (ends_seq_throw (position_throws (live_delay h) h')))

theorem live_counted {s : LState 23} (h : Live s)
    (h' : 0 ≤ s.st motor_position + s.st d ∧ s.st motor_position + s.st d ≤ 50000) (hi : s.st i + 1 ≤ 200000) :
    Live (counted s) := by
  have := h.ir
  exact ⟨h.ph, h.dir, h.cc, h.cr, h', h.mr, h.m2r, (show 0 ≤ s.st i + 1 ∧ s.st i + 1 ≤ 200000 by omega)⟩

/-- the `switch` -/
def cases : St :=
  .ite (.cmp .eq (.var ramp_sts) ramp_up) caseUp <|
  .ite (.cmp .eq (.var ramp_sts) ramp_const) caseConst <|
  .ite (.cmp .eq (.var ramp_sts) ramp_down) caseDown <|
  assert (.cmp .ne (.const s32 0) (.const s32 0))

theorem turn_ends {s s' : LState 23} (h : Live s)
    (h' : 0 ≤ s.st motor_position + s.st d ∧ s.st motor_position + s.st d ≤ 50000) (hi : s.st i + 1 ≤ 200000)
    (e : Ends Γ cases (counted s) (.ret ()) s') : Ends Γ turn s (.ret ()) s' :=
  ends_seq (delay_ends h).1 (ends_seq (delay_ends h).2 (ends_seq (position_ends (live_delay h) h')
    (ends_seq (count_ends (s := (((s.write t (s.st c)).write us ((s.st c + 128) / 256)).write motor_position
      (s.st motor_position + s.st d))) ⟨h.ir.1, hi⟩) e)))

theorem cases_up {s s' : LState 23} (h : s.st ramp_sts = 1) (e : Ends Γ caseUp s (.ret ()) s') : Ends Γ cases s (.ret ()) s' :=
  ends_ite (sts_eq h (by decide) 1 (by decide)) e

theorem cases_down {s s' : LState 23} (h : s.st ramp_sts = 3) (e : Ends Γ caseDown s (.ret ()) s') :
    Ends Γ cases s (.ret ()) s' :=
  ends_ite (sts_eq h (by decide) 1 (by decide)) (ends_ite (sts_eq h (by decide) 2 (by decide))
    (ends_ite (sts_eq h (by decide) 3 (by decide)) e))

/-! ### one turn of the loop -/

/-- the part of the state that the course of the motor depends on -/
structure At (s : LState 23) (D L L2 p k v a : Int) : Prop where
  live : Live s
  hd : s.st d = D
  hm : s.st m = L
  hm2 : s.st m2 = L2
  hp : s.st motor_position = p
  hi : s.st i = k
  hc : s.st c = v
  ha : s.st ramp_sts = a
  shown : Shown s
  ph : s.st phase_ix = D * (if a = 0 then k else k + 1) % 4

/-- everything that a turn writes -/
abbrev turnOuts : List (Fin 23) := t :: us :: motor_position :: i :: caseOuts

theorem same_counted (s : LState 23) : Same turnOuts s (counted s) :=
  ((((Same.refl _ s).write (by decide)).write (by decide)).write (by decide)).write (by decide)

theorem next_phase {a D k : Int} (h : a = D * (k + 1) % 4) : (a + D) % 4 = D * (k + 1 + 1) % 4 := by
  have : D * (k + 1 + 1) = D * (k + 1) + D := by ring
  rw [this]
  omega

theorem turn_up {s : LState 23} {D L L2 p k v : Int} (h : At s D L L2 p k v 1) (hp : 0 ≤ p + D ∧ p + D ≤ 50000)
    (hk : k + 1 ≤ 200000) (hne : k + 1 ≠ L2) (hf : 6400 ≤ faster v (k + 1)) :
    ∃ s', Ends Γ turn s (.ret ()) s' ∧ At s' D L L2 (p + D) (k + 1) (faster v (k + 1)) 1 ∧ Same turnOuts s s' := by
  obtain ⟨hl, rfl, rfl, rfl, rfl, rfl, rfl, ha, hsh, hph⟩ := h
  have hl' := live_counted hl hp hk
  obtain ⟨s', e, hs, q1, q2, q3, q4⟩ := caseUp_go hl' hne hf
  refine ⟨s', turn_ends hl hp hk (cases_up ha e), ⟨q2, ?_, ?_, ?_, ?_, ?_, q1, ?_, q3, q4.trans (next_phase hph)⟩,
    (same_counted s).trans (hs.mono (by decide))⟩
  · rw [hs.st (by decide)]; rfl
  · rw [hs.st (by decide)]; rfl
  · rw [hs.st (by decide)]; rfl
  · rw [hs.st (by decide)]; rfl
  · rw [hs.st (by decide)]; rfl
  · rw [hs.st (by decide)]; exact ha

theorem turn_half {s : LState 23} {D L L2 p k v : Int} (h : At s D L L2 p k v 1) (hp : 0 ≤ p + D ∧ p + D ≤ 50000)
    (hk : k + 1 ≤ 200000) (heq : k + 1 = L2) (hlt : k + 1 < L) :
    ∃ s', Ends Γ turn s (.ret ()) s' ∧ At s' D L L2 (p + D) (k + 1) (slower v (k + 1) L) 3 ∧ Same turnOuts s s' := by
  obtain ⟨hl, rfl, rfl, rfl, rfl, rfl, rfl, ha, hsh, hph⟩ := h
  have hl' := live_counted hl hp hk
  have hl2 : Live ((counted s).write ramp_sts 3) :=
    ⟨hl'.ph, hl'.dir, hl'.cc, hl'.cr, hl'.pos, hl'.mr, hl'.m2r, hl'.ir⟩
  obtain ⟨s', e, hs, q1, q2, q3, q4⟩ := caseDown_go hl2 hlt
  refine ⟨s', turn_ends hl hp hk (cases_up ha (caseUp_turn hl' heq e)), ⟨q2, ?_, ?_, ?_, ?_, ?_, q1, ?_, q3, q4.trans (next_phase hph)⟩,
    ((same_counted s).write (by decide)).trans (hs.mono (by decide))⟩
  · rw [hs.st (by decide)]; rfl
  · rw [hs.st (by decide)]; rfl
  · rw [hs.st (by decide)]; rfl
  · rw [hs.st (by decide)]; rfl
  · rw [hs.st (by decide)]; rfl
  · rw [hs.st (by decide)]; rfl

theorem turn_down {s : LState 23} {D L L2 p k v : Int} (h : At s D L L2 p k v 3) (hp : 0 ≤ p + D ∧ p + D ≤ 50000)
    (hk : k + 1 ≤ 200000) (hlt : k + 1 < L) :
    ∃ s', Ends Γ turn s (.ret ()) s' ∧ At s' D L L2 (p + D) (k + 1) (slower v (k + 1) L) 3 ∧ Same turnOuts s s' := by
  obtain ⟨hl, rfl, rfl, rfl, rfl, rfl, rfl, ha, hsh, hph⟩ := h
  have hl' := live_counted hl hp hk
  obtain ⟨s', e, hs, q1, q2, q3, q4⟩ := caseDown_go hl' hlt
  refine ⟨s', turn_ends hl hp hk (cases_down ha e), ⟨q2, ?_, ?_, ?_, ?_, ?_, q1, ?_, q3, q4.trans (next_phase hph)⟩,
    (same_counted s).trans (hs.mono (by decide))⟩
  · rw [hs.st (by decide)]; rfl
  · rw [hs.st (by decide)]; rfl
  · rw [hs.st (by decide)]; rfl
  · rw [hs.st (by decide)]; rfl
  · rw [hs.st (by decide)]; rfl
  · rw [hs.st (by decide)]; exact ha

theorem turn_stop {s : LState 23} {D L L2 p k v : Int} (h : At s D L L2 p k v 3) (hp : 0 ≤ p + D ∧ p + D ≤ 50000)
    (hk : k + 1 ≤ 200000) (heq : k + 1 = L) :
    ∃ s', Ends Γ turn s (.ret ()) s' ∧ At s' D L L2 (p + D) (k + 1) v 0 ∧ Same turnOuts s s' ∧ s'.st CCP1IE = 0 := by
  obtain ⟨hl, rfl, rfl, rfl, rfl, rfl, rfl, ha, hsh, hph⟩ := h
  have hl' := live_counted hl hp hk
  obtain ⟨s', e, hs, q1, q2⟩ := caseDown_stop hl' heq
  refine ⟨s', turn_ends hl hp hk (cases_down ha e), ⟨⟨?_, ?_, ?_, ?_, ?_, ?_, ?_, ?_⟩, ?_, ?_, ?_, ?_, ?_, ?_, q1, ?_, ?_⟩,
    (same_counted s).trans (hs.mono (by decide)), q2⟩
  · rw [hs.st (by decide)]; exact hl'.ph
  · rw [hs.st (by decide)]; exact hl'.dir
  · rw [hs.st (by decide)]; exact hl'.cc
  · rw [hs.st (by decide)]; exact hl'.cr
  · rw [hs.st (by decide)]; exact hl'.pos
  · rw [hs.st (by decide)]; exact hl'.mr
  · rw [hs.st (by decide)]; exact hl'.m2r
  · rw [hs.st (by decide)]; exact hl'.ir
  · rw [hs.st (by decide)]; rfl
  · rw [hs.st (by decide)]; rfl
  · rw [hs.st (by decide)]; rfl
  · rw [hs.st (by decide)]; rfl
  · rw [hs.st (by decide)]; rfl
  · rw [hs.st (by decide)]; rfl
  · refine ⟨?_, ?_, ?_, ?_⟩
    · rw [hs.st (by decide), hs.st (by decide)]; exact hsh.con1
    · rw [hs.st (by decide), hs.st (by decide)]; exact hsh.con2
    · rw [hs.st (by decide), hs.st (by decide)]; exact hsh.high
    · rw [hs.st (by decide), hs.st (by decide)]; exact hsh.low
  · rw [hs.st (by decide)]; exact hph

/-! ### the acceleration never reaches the minimal delay -/

/-- a lower bound for the delay `v` after `k` steps of acceleration -/
def Accel (k v : Int) : Prop :=
  8000 ≤ v ∧ v ≤ 1280000 ∧ (2 * 1280000 ^ 2 ≤ v * v * (4 * k + 2) ∨ v ≤ 2 * k + 2)

theorem accel_start : Accel 0 1280000 := ⟨by decide, by decide, Or.inl (by decide)⟩

theorem accel_step {k v : Int} (hk : 0 ≤ k) (h : Accel k v) : Accel (k + 1) (faster v (k + 1)) := by
  obtain ⟨h1, h2, h3⟩ := h
  by_cases hs : v ≤ 2 * k + 2
  · have : 2 * v / (4 * (k + 1) + 1) = 0 := Int.ediv_eq_zero_of_lt (by omega) (by omega)
    have e : faster v (k + 1) = v := by unfold faster; omega
    rw [e]
    exact ⟨h1, h2, Or.inr (by omega)⟩
  · replace h3 : 2 * 1280000 ^ 2 ≤ v * v * (4 * k + 2) := h3.resolve_right hs
    obtain ⟨i, hi⟩ : ∃ i, i = k + 1 := ⟨_, rfl⟩
    have hki : k = i - 1 := by omega
    subst hki
    have ei : i - 1 + 1 = i := by omega
    rw [ei]
    -- the division
    have d0 : 0 ≤ 2 * v / (4 * i + 1) := Int.ediv_nonneg (by omega) (by omega)
    have d1 : 2 * v / (4 * i + 1) * (4 * i + 1) ≤ 2 * v := Int.ediv_mul_le _ (by omega)
    obtain ⟨w, hw⟩ : ∃ w, w = faster v i := ⟨_, rfl⟩
    rw [← hw]
    have e : 2 * v / (4 * i + 1) = v - w := by rw [hw]; unfold faster; omega
    rw [e] at d0 d1
    -- w (4i+1) ≥ v (4i-1)
    have d2 : v * (4 * i - 1) ≤ w * (4 * i + 1) := by nlinarith
    have w0 : 0 < w := by
      have : 0 < v * (4 * i - 1) := Int.mul_pos (by omega) (by omega)
      by_contra hc
      have : w * (4 * i + 1) ≤ 0 := Int.mul_nonpos_of_nonpos_of_nonneg (by omega) (by omega)
      omega
    -- the invariant
    have d3 : (v * (4 * i - 1)) * (v * (4 * i - 1)) ≤ (w * (4 * i + 1)) * (w * (4 * i + 1)) := by
      have : 0 ≤ v * (4 * i - 1) := Int.mul_nonneg (by omega) (by omega)
      exact Int.mul_le_mul d2 d2 this (by omega)
    have d4 : v * v * (4 * i - 2) ≤ w * w * (4 * i + 2) := by
      have p1 : (4 * i - 2) * ((4 * i + 1) * (4 * i + 1)) ≤ (4 * i - 1) * (4 * i - 1) * (4 * i + 2) := by nlinarith
      have p2 : v * v * ((4 * i - 2) * ((4 * i + 1) * (4 * i + 1))) ≤ v * v * ((4 * i - 1) * (4 * i - 1) * (4 * i + 2)) :=
        Int.mul_le_mul_of_nonneg_left p1 (Int.mul_nonneg (by omega) (by omega))
      have p3 : (v * (4 * i - 1)) * (v * (4 * i - 1)) * (4 * i + 2) ≤ (w * (4 * i + 1)) * (w * (4 * i + 1)) * (4 * i + 2) :=
        Int.mul_le_mul_of_nonneg_right d3 (by omega)
      have p4 : v * v * (4 * i - 2) * ((4 * i + 1) * (4 * i + 1)) ≤ w * w * (4 * i + 2) * ((4 * i + 1) * (4 * i + 1)) := by
        calc _ = v * v * ((4 * i - 2) * ((4 * i + 1) * (4 * i + 1))) := by ring
          _ ≤ v * v * ((4 * i - 1) * (4 * i - 1) * (4 * i + 2)) := p2
          _ = (v * (4 * i - 1)) * (v * (4 * i - 1)) * (4 * i + 2) := by ring
          _ ≤ (w * (4 * i + 1)) * (w * (4 * i + 1)) * (4 * i + 2) := p3
          _ = _ := by ring
      exact Int.le_of_mul_le_mul_right p4 (Int.mul_pos (by omega) (by omega))
    have d5 : 2 * 1280000 ^ 2 ≤ w * w * (4 * i + 2) := by
      have : 4 * (i - 1) + 2 = 4 * i - 2 := by omega
      rw [this] at h3
      omega
    refine ⟨?_, by omega, Or.inl d5⟩
    by_cases hi : i ≤ 4000
    · by_contra hc
      have : w * w ≤ 8000 * 8000 := Int.mul_le_mul (by omega) (by omega) (by omega) (by omega)
      have : w * w * (4 * i + 2) ≤ 8000 * 8000 * (4 * 4000 + 2) :=
        Int.mul_le_mul this (by omega) (by omega) (by omega)
      omega
    · by_contra hc
      have g1 : (2 * i + 1) * (4 * i - 1) ≤ v * (4 * i - 1) := Int.mul_le_mul_of_nonneg_right (by omega) (by omega)
      have g2 : w * (4 * i + 1) ≤ (2 * i - 2) * (4 * i + 1) := Int.mul_le_mul_of_nonneg_right (by omega) (by omega)
      nlinarith

theorem accel_faster {k v : Int} (hk : 0 ≤ k) (h : Accel k v) : 6400 ≤ faster v (k + 1) := by
  have := (accel_step hk h).1
  omega

/-! ### the loop -/

/-- `q` is `n` steps from `p` in the direction `D` -/
def Ahead (D p n q : Int) : Prop := (D = 1 ∧ q = p + n) ∨ (D = -1 ∧ q = p - n)

theorem down_loop (n : Nat) {s : LState 23} {D L L2 p k v q : Int} (h : At s D L L2 p k v 3) (hn : L - k = n + 1) (hL : L ≤ 50000)
    (hk : 0 ≤ k) (hq : Ahead D p (L - k) q) (hp : 0 ≤ p ∧ p ≤ 50000) (hq' : 0 ≤ q ∧ q ≤ 50000) :
    ∃ s' v', Ends Γ (.while busy turn) s (.ret ()) s' ∧ At s' D L L2 q L v' 0 ∧ Same turnOuts s s' ∧ s'.st CCP1IE = 0 := by
  have hb := busy_eval (s := s.st) (a := 3) h.ha (by decide)
  unfold Ahead at hq
  induction n generalizing s p k v with
  | zero =>
    obtain ⟨s', e, ha, hs, h0⟩ := turn_stop h (by omega) (by omega) (by omega)
    have e1 : p + D = q := by omega
    have e2 : k + 1 = L := by omega
    rw [e1, e2] at ha
    exact ⟨s', v, ends_while_true hb e (ends_while_false (busy_eval ha.ha (by decide))), ha, hs, h0⟩
  | succ n ih =>
    obtain ⟨s1, e, ha, hs⟩ := turn_down h (by omega) (by omega) (by omega)
    obtain ⟨s', v', e', ha', hs', h0⟩ := ih ha (by omega) (by omega) (by omega) (by omega) (busy_eval ha.ha (by decide))
    exact ⟨s', v', ends_while_true hb e e', ha', hs.trans hs', h0⟩

theorem up_loop (n : Nat) {s : LState 23} {D L L2 p k v q : Int} (h : At s D L L2 p k v 1) (hn : L2 - k = n + 1) (hL : L ≤ 50000)
    (hL2 : L2 < L) (hk : 0 ≤ k) (ha : Accel k v) (hq : Ahead D p (L - k) q) (hp : 0 ≤ p ∧ p ≤ 50000) (hq' : 0 ≤ q ∧ q ≤ 50000) :
    ∃ s' v', Ends Γ (.while busy turn) s (.ret ()) s' ∧ At s' D L L2 q L v' 0 ∧ Same turnOuts s s' ∧ s'.st CCP1IE = 0 := by
  have hb := busy_eval (s := s.st) (a := 1) h.ha (by decide)
  have hq2 := hq
  unfold Ahead at hq2
  induction n generalizing s p k v with
  | zero =>
    obtain ⟨s1, e, h1, hs⟩ := turn_half h (by omega) (by omega) (by omega) (by omega)
    obtain ⟨s', v', e', ha', hs', h0⟩ := down_loop (L - (k + 1) - 1).toNat (q := q) h1 (by omega) hL (by omega)
      (by unfold Ahead; omega) (by omega) hq'
    exact ⟨s', v', ends_while_true hb e e', ha', hs.trans hs', h0⟩
  | succ n ih =>
    obtain ⟨s1, e, h1, hs⟩ := turn_up h (by omega) (by omega) (by omega) (accel_faster hk ha)
    obtain ⟨s', v', e', ha', hs', h0⟩ := ih h1 (by omega) (by omega) (accel_step hk ha) (by unfold Ahead; omega) (by omega)
      (busy_eval h1.ha (by decide)) (by omega)
    exact ⟨s', v', ends_while_true hb e e', ha', hs.trans hs', h0⟩

/-- a motor that never begins to slow down runs until it leaves the range -/
theorem forever (n : Nat) {s : LState 23} {D L p k v q : Int} (h : At s D L 0 p k v 1) (hk : 0 ≤ k) (hkn : k + n ≤ 200000)
    (ha : Accel k v) (hq : Ahead D p n q) (hp : 0 ≤ p ∧ p ≤ 50000) (hq' : (D = 1 ∧ q = 50000) ∨ (D = -1 ∧ q = 0)) :
    ∃ s', Ends Γ (.while busy turn) s (.thrown (beyond D)) s' ∧ (s'.st motor_position = q ∧ s'.st ramp_sts = 1) ∧ s'.st i = k + n ∧
      Same turnOuts s s' := by
  have hb := busy_eval (s := s.st) (a := 1) h.ha (by decide)
  have hq2 := hq
  unfold Ahead at hq2
  induction n generalizing s p k v with
  | zero =>
    obtain ⟨s', e, hs⟩ := turn_throws h.live (by have := h.hp; have := h.hd; omega)
    rw [h.hd] at e
    refine ⟨s', ends_while_throw hb e, ?_, ?_, hs.mono (by decide)⟩
    · rw [hs.st (by decide), hs.st (by decide)]; have := h.hp; exact ⟨by omega, h.ha⟩
    · rw [hs.st (by decide)]; have := h.hi; omega
  | succ n ih =>
    obtain ⟨s1, e, h1, hs⟩ := turn_up h (by omega) (by omega) (by omega) (accel_faster hk ha)
    obtain ⟨s', e', h2, h3, hs'⟩ := ih h1 (by omega) (by omega) (accel_step hk ha) (by unfold Ahead; omega) (by omega)
      (busy_eval h1.ha (by decide)) (by omega)
    exact ⟨s', ends_while_true hb e e', h2, by omega, hs.trans hs'⟩

/-! ### `motor_run` -/

theorem byte_mem {a : Int} (h : 0 ≤ a ∧ a ≤ 255) : a ∈ (List.range 256).map Int.ofNat := by
  simp only [List.mem_map, List.mem_range]
  exact ⟨a.toNat, by omega, by simp; omega⟩

theorem tmr_off {s : Fin 23 → Int} (h : 0 ≤ s TMR1ON ∧ s TMR1ON ≤ 255) :
    opAssignVal Γ s (.bit .band) TMR1ON (lit s8 (-2)) = .ret (s TMR1ON - s TMR1ON % 2) := by
  have key : ∀ a ∈ (List.range 256).map Int.ofNat,
      opAssignVal Γ (fun _ => a) (.bit .band) TMR1ON (lit s8 (-2)) = .ret (a - a % 2) := by decide +kernel
  rw [← key _ (byte_mem h)]
  rfl

theorem tmr_on {s : Fin 23 → Int} (h : 0 ≤ s TMR1ON ∧ s TMR1ON ≤ 255) :
    opAssignVal Γ s (.bit .bor) TMR1ON (lit s8 1) = .ret (s TMR1ON + 1 - s TMR1ON % 2) := by
  have key : ∀ a ∈ (List.range 256).map Int.ofNat,
      opAssignVal Γ (fun _ => a) (.bit .bor) TMR1ON (lit s8 1) = .ret (a + 1 - a % 2) := by decide +kernel
  rw [← key _ (byte_mem h)]
  rfl

/-- motor3.c:177 -/
theorem ev_firstCcpr {s : Fin 23 → Int} {a b : Int} (ha : s TMR1H = a) (hb : s TMR1L = b) (h : 0 ≤ a ∧ a ≤ 255)
    (h' : 0 ≤ b ∧ b ≤ 255) : Ev Γ s firstCcpr (tr s32 1281000 1346535) (a * 256 + b + 1281000) := by
  have ea : Ev Γ s (.var TMR1H) pic_register_t a := ev_var good TMR1H rfl ha h
  have eb : Ev Γ s (.var TMR1L) pic_register_t b := ev_var good TMR1L rfl hb h'
  have e1 : Ev Γ s (.bin .shl (.var TMR1H) (lit s8 8)) (tr u16 0 65280) (a * 256) := by
    refine ev_bin careful ea (lit_wf8 (by decide +kernel) s) (q := ()) (e := .trap_policy) (R := u16) (x := 0) (y := 8)
      (by decide +kernel) ?_ (in_u16 (by omega)) (in_u16 (by omega)) (in_u16 (by omega)) (h1 := fun _ => ?_)
    · simp only [imath]; rfl
    · by_cases a0 : a = 0
      · exact Or.inr (Or.inr ⟨a0, by decide⟩)
      · exact Or.inr (Or.inl (by omega))
  have e2 : Ev Γ s (bor (.bin .shl (.var TMR1H) (lit s8 8)) (.var TMR1L)) (tr u16 0 65535) (a * 256 + b) := by
    refine ev_bin careful e1 eb (q := ()) (e := .trap_policy) (R := u16) (x := 0) (y := 0)
      (by decide +kernel) ?_ (in_u16 (by omega)) (in_u16 (by omega)) (in_u16 (by omega))
    simp only [imath]
    rw [lor_nat (by omega) (by omega)]
    have := Nat.shiftLeft_add_eq_or_of_lt (show b.toNat < 2 ^ 8 by omega) a.toNat
    rw [Nat.shiftLeft_eq] at this
    rw [show (a * 256).toNat = a.toNat * 2 ^ 8 by omega, ← this]
    congr 1
    omega
  have e3 : Ev Γ s (add (bor (.bin .shl (.var TMR1H) (lit s8 8)) (.var TMR1L)) C0) (tr s32 1280000 1345535)
      (a * 256 + b + 1280000) :=
    ev_bin careful e2 (ev_lit (L := litOf s32 1280000) (k := 1280000) (by decide +kernel) rfl) (q := ()) (e := .trap_policy)
      (R := s32) (x := 0) (y := 1280000) (by decide +kernel) rfl (in_s32 (by omega)) (in_s32 (by omega)) (in_s32 (by omega))
  refine ev_bin careful e3 (ev_lit (L := litOf s16 1000) (k := 1000) (by decide +kernel) rfl) (q := ()) (e := .trap_policy)
      (R := s32) (x := 1280000) (y := 1000) (by decide +kernel) ?_ (in_s32 (by omega)) (in_s32 (by omega)) (in_s32 (by omega))
  simp only [imath]
  congr 1
  omega

/-- motor3.c:178 `phase_ix = d & literal(3)` -/
theorem firstPhase_val {s : Fin 23 → Int} (h : s d = 1 ∨ s d = -1) :
    assignVal Γ s phase_ix (band (.var d) (lit s8 3)) = .ret (s d % 4) := by
  have key : ∀ a ∈ ([1, -1] : List Int), assignVal Γ (fun _ => a) phase_ix (band (.var d) (lit s8 3)) = .ret (a % 4) := by
    decide +kernel
  rw [← key _ (by simp; omega)]
  rfl

/-- what the beginning writes -/
abbrev startOuts : List (Fin 23) := i :: m2 :: ramp_sts :: TMR1ON :: c :: CCP1IE :: endOuts

theorem start_ends {s : LState 23} {D L p : Int} (hD : D = 1 ∨ D = -1) (hL : 1 ≤ L ∧ L ≤ 50000) (hp : 0 ≤ p ∧ p ≤ 50000)
    (hd : s.st d = D) (hm : s.st m = L) (hpos : s.st motor_position = p) (h1 : 0 ≤ s.st TMR1ON ∧ s.st TMR1ON ≤ 255)
    (h2 : 0 ≤ s.st TMR1H ∧ s.st TMR1H ≤ 255) (h3 : 0 ≤ s.st TMR1L ∧ s.st TMR1L ≤ 255) :
    ∃ s', Ends Γ start s (.ret ()) s' ∧ At s' D L (L / 2) p 0 1280000 1 ∧ Same startOuts s s' := by
  subst hd hm hpos
  let s1 := s.write i 0
  let s2 := s1.write m2 (s.st m / 2)
  let s3 := s2.write ramp_sts 1
  let s4 := s3.write TMR1ON (s.st TMR1ON - s.st TMR1ON % 2)
  let s5 := s4.write c 1280000
  let w := s.st TMR1H * 256 + s.st TMR1L + 1281000
  let s6 := s5.write ccpr w
  let a := s.st d % 4
  let s7 := s6.write phase_ix a
  have e1 : Ends Γ (.assign i (lit s8 0)) s (.ret ()) s1 := ends_assign rfl
  have e2 : Ends Γ (.assign m2 (div (.var m) (lit s8 2))) s1 (.ret ()) s2 := by
    have : Ev Γ s1.st (div (.var m) (lit s8 2)) (ex u16 0 25000) (s.st m / 2) := by
      refine ev_bin careful (ev_m (v := s.st m) rfl (by omega)) (lit_wf8 (by decide +kernel) _) (q := ())
        (e := .exception_policy) (R := u16) (x := 0) (y := 2) (by decide +kernel) ?_ (in_u16 (by omega)) (in_u16 (by omega))
        (in_u16 (by omega))
      simp only [imath]
      rw [if_neg (by omega), tdiv_nonneg (by omega)]
    exact assign_of careful good this (S := position_t) rfl (x := 0) (by decide +kernel)
      (show 0 ≤ s.st m / 2 ∧ s.st m / 2 ≤ 50000 by omega)
  have e3 : Ends Γ (.assign ramp_sts ramp_up) s2 (.ret ()) s3 := ends_assign rfl
  have e4 : Ends Γ (.opAssign (.bit .band) TMR1ON (lit s8 (-2))) s3 (.ret ()) s4 := ends_opAssign (tmr_off (s := s3.st) h1)
  have e5 : Ends Γ (.assign c C0) s4 (.ret ()) s5 := ends_assign rfl
  have e6 : Ends Γ (.assign ccpr firstCcpr) s5 (.ret ()) s6 :=
    assign_of careful good (ev_firstCcpr (s := s5.st) rfl rfl h2 h3) (S := ccpr_t) rfl (x := 1281000) (by decide +kernel)
      (show 0 ≤ w ∧ w ≤ 4294967295 by omega)
  have e7 : Ends Γ (.assign phase_ix (band (.var d) (lit s8 3))) s6 (.ret ()) s7 := ends_assign (firstPhase_val (s := s6.st) hD)
  obtain ⟨s8, e8, hs, hr⟩ := update_ends (s := s7) (a := a) (w := w) rfl (by omega) rfl (by omega)
  let s9 := s8.write CCP1IE 1
  have e9 : Ends Γ (.assign CCP1IE (lit Motor.s8 1)) s8 (.ret ()) s9 := ends_assign rfl
  have ht : s9.st TMR1ON = s.st TMR1ON - s.st TMR1ON % 2 := by
    rw [show s9.st TMR1ON = s8.st TMR1ON from write_ne _ _ (by decide), hs.st (by decide)]; rfl
  have e10 := ends_opAssign (tmr_on (s := s9.st) (by omega))
  let s10 := s9.write TMR1ON (s9.st TMR1ON + 1 - s9.st TMR1ON % 2)
  have hsame : Same startOuts s s7 := (((((((Same.refl _ s).write (by decide)).write (by decide)).write (by decide)).write
    (by decide)).write (by decide)).write (by decide)).write (by decide)
  have hs10 : Same (CCP1IE :: TMR1ON :: outs) s7 s10 :=
    ((hs.mono (by decide)).write (by decide)).write (by decide)
  refine ⟨s10, ?_, ⟨⟨?_, ?_, ?_, ?_, ?_, ?_, ?_, ?_⟩, ?_, ?_, ?_, ?_, ?_, ?_, ?_, ?_, ?_⟩, hsame.trans (hs10.mono (by decide))⟩
  · exact ends_seq e1 (ends_seq e2 (ends_seq e3 (ends_seq e4 (ends_seq e5 (ends_seq e6 (ends_seq e7 (ends_seq e8
      (ends_seq e9 e10))))))))
  · rw [hs10.st (by decide)]; show 0 ≤ a ∧ a ≤ 3; omega
  · rw [hs10.st (by decide)]; exact hD
  · rw [hs10.st (by decide)]; show 0 ≤ w ∧ w ≤ 16777215; omega
  · rw [hs10.st (by decide)]; show (6400 : Int) ≤ 1280000 ∧ (1280000 : Int) ≤ 1280000; decide
  · rw [hs10.st (by decide)]; exact hp
  · rw [hs10.st (by decide)]; show 0 ≤ s.st m ∧ s.st m ≤ 50000; omega
  · rw [hs10.st (by decide)]; show 0 ≤ s.st m / 2 ∧ s.st m / 2 ≤ 50000; omega
  · rw [hs10.st (by decide)]; show (0 : Int) ≤ 0 ∧ (0 : Int) ≤ 200000; decide
  · rw [hs10.st (by decide)]; rfl
  · rw [hs10.st (by decide)]; rfl
  · rw [hs10.st (by decide)]; rfl
  · rw [hs10.st (by decide)]; rfl
  · rw [hs10.st (by decide)]; rfl
  · rw [hs10.st (by decide)]; rfl
  · rw [hs10.st (by decide)]; rfl
  · refine ⟨?_, ?_, ?_, ?_⟩
    · rw [hs10.st (show phase_ix ∉ _ by decide)]; exact hr.con1
    · rw [hs10.st (show phase_ix ∉ _ by decide)]; exact hr.con2
    · rw [hs10.st (show ccpr ∉ _ by decide)]; exact hr.high
    · rw [hs10.st (show ccpr ∉ _ by decide)]; exact hr.low
  · rw [hs10.st (by decide)]; show s.st d % 4 = s.st d * 1 % 4; rw [Int.mul_one]

theorem cmp_pos {s : Fin 23 → Int} {j k : Fin 23} (hj : Γ j = position_t) (hk : Γ k = position_t)
    (h : 0 ≤ s j ∧ s j ≤ 50000) (h' : 0 ≤ s k ∧ s k ≤ 50000) :
    (LCond.cmp .gt (.var j) (.var k)).eval Γ s = .ret (decide (s k < s j)) := by
  rw [cmp_of careful (ev_var good j hj rfl (show position_t.opd.Has _ from h)) (ev_var good k hk rfl (show position_t.opd.Has _ from h'))
    (q := ()) (e := .exception_policy) (R := u16) (R' := u16) (x := 0) (y := 0) (by decide +kernel) (in_u16 (by omega))
    (in_u16 (by omega)) (in_u16 (by omega)) (in_u16 (by omega))]
  simp only [rel]

theorem diff_ends {s : LState 23} {j k : Fin 23} (hj : Γ j = position_t) (hk : Γ k = position_t)
    (h : s.st j ≤ 50000) (h' : 0 ≤ s.st k) (hle : s.st k ≤ s.st j) :
    Ends Γ (.assign m (sub (.var j) (.var k))) s (.ret ()) (s.write m (s.st j - s.st k)) := by
  have : Ev Γ s.st (sub (.var j) (.var k)) (ex u16 0 50000) (s.st j - s.st k) :=
    ev_bin careful (ev_var good j hj rfl (show position_t.opd.Has _ from (show 0 ≤ s.st j ∧ s.st j ≤ 50000 by omega)))
      (ev_var good k hk rfl (show position_t.opd.Has _ from (show 0 ≤ s.st k ∧ s.st k ≤ 50000 by omega)))
      (q := ()) (e := .exception_policy) (R := u16) (x := 0) (y := 0) (by decide +kernel) rfl (in_u16 (by omega))
      (in_u16 (by omega)) (in_u16 (by omega))
  exact assign_of careful good this (S := position_t) rfl (x := 0) (by decide +kernel)
    (show 0 ≤ s.st j - s.st k ∧ s.st j - s.st k ≤ 50000 by omega)

/-- what `motor_run` writes -/
abbrev runOuts : List (Fin 23) := d :: m :: startOuts

theorem run_up {s : LState 23} {p q : Int} (h : Ready s p q) (hlt : p < q) :
    ∃ s', Ends Γ motor_run s (.ret ()) s' ∧ At s' 1 (q - p) ((q - p) / 2) p 0 1280000 1 ∧ Same runOuts s s' := by
  obtain ⟨hp, hq, pr, qr, h1, h2, h3⟩ := h
  obtain ⟨s', e, ha, hs⟩ := start_ends (s := (s.write d 1).write m (q - p)) (D := 1) (L := q - p) (p := p) (by decide) (by omega) pr rfl
    rfl hp h1 h2 h3
  refine ⟨s', ?_, ha, (((Same.refl _ s).write (by decide)).write (by decide)).trans (hs.mono (by decide))⟩
  refine ends_ite (cmp_pos rfl rfl (by omega) (by omega)) ?_
  rw [if_pos (by simp; omega)]
  have e2 := diff_ends (s := s.write d 1) (j := new_position) (k := motor_position) rfl rfl
    (by rw [write_ne _ _ (by decide)]; omega) (by rw [write_ne _ _ (by decide)]; omega)
    (by rw [write_ne _ _ (by decide), write_ne _ _ (by decide)]; omega)
  rw [write_ne _ _ (by decide), write_ne _ _ (by decide), hp, hq] at e2
  exact ends_seq (ends_assign rfl) (ends_seq e2 e)

theorem run_down {s : LState 23} {p q : Int} (h : Ready s p q) (hlt : q < p) :
    ∃ s', Ends Γ motor_run s (.ret ()) s' ∧ At s' (-1) (p - q) ((p - q) / 2) p 0 1280000 1 ∧ Same runOuts s s' := by
  obtain ⟨hp, hq, pr, qr, h1, h2, h3⟩ := h
  obtain ⟨s', e, ha, hs⟩ := start_ends (s := (s.write d (-1)).write m (p - q)) (D := -1) (L := p - q) (p := p) (by decide) (by omega)
    pr rfl rfl hp h1 h2 h3
  refine ⟨s', ?_, ha, (((Same.refl _ s).write (by decide)).write (by decide)).trans (hs.mono (by decide))⟩
  refine ends_ite (cmp_pos rfl rfl (by omega) (by omega)) ?_
  rw [if_neg (by simp; omega)]
  refine ends_ite (cmp_pos rfl rfl (by omega) (by omega)) ?_
  rw [if_pos (by simp; omega)]
  have e2 := diff_ends (s := s.write d (-1)) (j := motor_position) (k := new_position) rfl rfl
    (by rw [write_ne _ _ (by decide)]; omega) (by rw [write_ne _ _ (by decide)]; omega)
    (by rw [write_ne _ _ (by decide), write_ne _ _ (by decide)]; omega)
  rw [write_ne _ _ (by decide), write_ne _ _ (by decide), hp, hq] at e2
  exact ends_seq (ends_assign rfl) (ends_seq e2 e)

theorem run_stay {s : LState 23} {p : Int} (h : Ready s p p) :
    ∃ s', Ends Γ motor_run s (.ret ()) s' ∧ s'.st ramp_sts = 0 ∧ Same [d, m, ramp_sts] s s' := by
  obtain ⟨hp, hq, pr, qr, h1, h2, h3⟩ := h
  refine ⟨((s.write d 0).write m 0).write ramp_sts 0, ?_, rfl,
    (((Same.refl _ s).write (by decide)).write (by decide)).write (by decide)⟩
  refine ends_ite (cmp_pos rfl rfl (by omega) (by omega)) ?_
  rw [if_neg (by simp; omega)]
  refine ends_ite (cmp_pos rfl rfl (by omega) (by omega)) ?_
  rw [if_neg (by simp; omega)]
  exact ends_seq (ends_assign rfl) (ends_seq (ends_assign rfl) (ends_assign rfl))

/-! ### the states on the way -/

theorem ends_unique {p : St} {s s1 s2 : LState 23} {r1 r2 : Out Unit} (h1 : Ends Γ p s r1 s1) (h2 : Ends Γ p s r2 s2) :
    r1 = r2 ∧ s1 = s2 := by
  obtain ⟨k1, h1⟩ := h1
  obtain ⟨k2, h2⟩ := h2
  have := (h1 (k1 + k2) (by omega)).symm.trans (h2 (k1 + k2) (by omega))
  simp only [Option.some.injEq, Prod.mk.injEq] at this
  exact this

/-- where the motor is after `k` interrupts -/
def Course (s : LState 23) (D L p : Int) (k : Int) : Prop :=
  ∃ v, (At s D L (L / 2) (p + D * k) k v 1 ∧ Accel k v ∧ (k < L / 2 ∨ L = 1)) ∨
    (At s D L (L / 2) (p + D * k) k v 3 ∧ k < L ∧ 2 ≤ L) ∨ (At s D L (L / 2) (p + D * k) k v 0 ∧ k = L ∧ 2 ≤ L)

theorem course_step {s s' : LState 23} {D L p : Int} {k : Nat} (hL : 1 ≤ L ∧ L ≤ 50000) (hp : 0 ≤ p ∧ p ≤ 50000)
    (h : Course s D L p k) (hb : busy.eval Γ s.st = .ret true)
    (e : Ends Γ turn s (.ret ()) s') : Course s' D L p (k + 1 : Nat) := by
  have hk : (0 : Int) ≤ k := by omega
  have e1 : p + D * k + D = p + D * (k + 1 : Nat) := by push_cast; ring
  have e2 : ((k : Int) + 1) = ((k + 1 : Nat) : Int) := by push_cast; rfl
  obtain ⟨v, h⟩ := h
  have hD : D = 1 ∨ D = -1 := by
    rcases h with ⟨h, _⟩ | ⟨h, _⟩ | ⟨h, _⟩ <;> exact h.hd ▸ h.live.dir
  by_cases hr : 0 ≤ p + D * k + D ∧ p + D * k + D ≤ 50000
  swap
  · -- the handler throws
    have : ∃ s2, Ends Γ turn s (.thrown (beyond (s.st d))) s2 := by
      rcases h with ⟨h, _⟩ | ⟨h, _⟩ | ⟨h, _⟩ <;>
      · obtain ⟨s2, e, _⟩ := turn_throws h.live (by rw [h.hp, h.hd]; exact hr)
        exact ⟨s2, e⟩
    obtain ⟨s2, e3⟩ := this
    exact absurd (ends_unique e e3).1 (by simp)
  have hpk : 0 ≤ p + D * k ∧ p + D * k ≤ 50000 := by
    rcases h with ⟨h, _⟩ | ⟨h, _⟩ | ⟨h, _⟩ <;> exact h.hp ▸ h.live.pos
  have hk2 : (k : Int) + 1 ≤ 200000 := by rcases hD with rfl | rfl <;> omega
  rcases h with ⟨h, ha, hs⟩ | ⟨h, hs⟩ | ⟨h, hs⟩
  · by_cases heq : (k : Int) + 1 = L / 2
    · obtain ⟨s1, f, g, _⟩ := turn_half h hr hk2 heq (by omega)
      obtain ⟨_, rfl⟩ := ends_unique f e
      rw [e1, e2] at g
      exact ⟨_, Or.inr (Or.inl ⟨g, by omega, by omega⟩)⟩
    · obtain ⟨s1, f, g, _⟩ := turn_up h hr hk2 heq (accel_faster hk ha)
      obtain ⟨_, rfl⟩ := ends_unique f e
      have := accel_step hk ha
      rw [e1, e2] at g
      rw [e2] at this
      exact ⟨_, Or.inl ⟨g, this, by omega⟩⟩
  · by_cases heq : (k : Int) + 1 = L
    · obtain ⟨s1, f, g, _⟩ := turn_stop h hr hk2 heq
      obtain ⟨_, rfl⟩ := ends_unique f e
      rw [e1, e2] at g
      exact ⟨_, Or.inr (Or.inr ⟨g, by omega, by omega⟩)⟩
    · obtain ⟨s1, f, g, _⟩ := turn_down h hr hk2 (by omega)
      obtain ⟨_, rfl⟩ := ends_unique f e
      rw [e1, e2] at g
      exact ⟨_, Or.inr (Or.inl ⟨g, by omega, by omega⟩)⟩
  · rw [busy_eval h.ha (by decide)] at hb
    simp at hb

end Verif.Motor
