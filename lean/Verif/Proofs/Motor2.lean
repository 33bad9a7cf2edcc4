import Verif.Motor2Spec
import Verif.Proofs.Run
import Mathlib.Tactic.Linarith
import Mathlib.Tactic.Ring

/-!
Helper lemmas for C80: the first safe version of the motor program, statement by statement.
-/

namespace Verif.Motor2
open Spec Lang Run

attribute [local instance] lp64

private theorem ret_bind {α β : Type} (a : α) (f : α → Out β) : (Out.ret a >>= f) = f a := rfl

theorem careful : Careful names := ⟨fun e => by cases e; simp [names, defaultException, strictException], fun e => by cases e; decide +kernel⟩

instance (T : PTy names) : Decidable (PTy.Wf T) := inferInstanceAs (Decidable (_ ∧ _ ∧ _ ∧ _))

theorem good : GoodVars Γ := by
  have h : ∀ i : Fin 30, PTy.Wf (Γ i) ∧ NotLit (Γ i).opd := by decide +kernel
  exact h

abbrev u8 : ITy := ⟨false, 0⟩
abbrev u16 : ITy := ⟨false, 1⟩
abbrev u32 : ITy := ⟨false, 2⟩
abbrev s16 : ITy := ⟨true, 1⟩
abbrev s32 : ITy := ⟨true, 2⟩

/-- the type of an intermediate result -/
abbrev ex (R : ITy) (lo hi : Int) : PTy names := ⟨Opd.range R lo hi, some (), some ()⟩

theorem in_u32 {x : Int} (h : 0 ≤ x ∧ x ≤ 4294967295) : u32.In x := h
theorem in_u16 {x : Int} (h : 0 ≤ x ∧ x ≤ 65535) : u16.In x := h
theorem in_s32 {x : Int} (h : -2147483648 ≤ x ∧ x ≤ 2147483647) : s32.In x := h
theorem in_s16 {x : Int} (h : -32768 ≤ x ∧ x ≤ 32767) : s16.In x := h

theorem tdiv_nonneg {a b : Int} (ha : 0 ≤ a) : a.tdiv b = a / b := Int.tdiv_eq_ediv_of_nonneg ha

/-! ### one expression at a time -/

section
variable {s : Fin 30 → Int}

theorem ev_int (k : Int) (h : -2147483648 ≤ k ∧ k ≤ 2147483647) : Ev Γ s (int k) (PTy.builtin s32) k :=
  ev_const s32 k ⟨by decide, h⟩

theorem ev_u32 (i : Fin 30) {v : Int} (hi : Γ i = safeT u32) (hv : s i = v) (h : 0 ≤ v ∧ v ≤ 4294967295) :
    Ev Γ s (.var i) (safeT u32) v := ev_var good i hi hv h
theorem ev_u16 (i : Fin 30) {v : Int} (hi : Γ i = safeT u16) (hv : s i = v) (h : 0 ≤ v ∧ v ≤ 65535) :
    Ev Γ s (.var i) (safeT u16) v := ev_var good i hi hv h
theorem ev_s16 (i : Fin 30) {v : Int} (hi : Γ i = safeT s16) (hv : s i = v) (h : -32768 ≤ v ∧ v ≤ 32767) :
    Ev Γ s (.var i) (safeT s16) v := ev_var good i hi hv h

/-- motor2.c:77 `step_no == move - 1` -/
theorem cmp_last {k n : Int} (hk : s step_no = k) (kr : 0 ≤ k ∧ k ≤ 65535) (hn : s move = n) (nr : 0 ≤ n ∧ n ≤ 65535) :
    (LCond.cmp .eq (.var step_no) (sub (.var move) (int 1))).eval Γ s = .ret (decide (k = n - 1)) := by
  have e1 : Ev Γ s (sub (.var move) (int 1)) (ex s32 (-2147483647) 2147483647) (n - 1) :=
    ev_bin careful (ev_u16 move rfl hn nr) (ev_int 1 (by decide)) (q := ()) (e := ()) (R := s32) (x := 5) (y := 1)
      (by decide +kernel) rfl (in_s32 (by omega)) (in_s32 (by omega)) (in_s32 (by omega))
  exact cmp_of careful (ev_u16 step_no rfl hk kr) e1 (q := ()) (e := ()) (R := s32) (R' := s32) (x := 5) (y := 1)
    (by decide +kernel) (in_s32 (by omega)) (in_s32 (by omega)) (in_s32 (by omega)) (in_s32 (by omega))

/-- motor2.c:83 `denom > 0` -/
theorem cmp_pos {d : Int} (hd : s denom = d) (dr : -32768 ≤ d ∧ d ≤ 32767) :
    (LCond.cmp .gt (.var denom) (int 0)).eval Γ s = .ret (decide (d > 0)) := 
  cmp_of careful (ev_s16 denom rfl hd dr) (ev_int 0 (by decide)) (q := ()) (e := ()) (R := s32) (R' := s32) (x := 5) (y := 1)
    (by decide +kernel) (in_s32 (by omega)) (in_s32 (by omega)) (in_s32 (by omega)) (in_s32 (by omega))

/-- motor2.c:89 `c <= C_MIN` -/
theorem cmp_min {v : Int} (hv : s c = v) (h : 0 ≤ v ∧ v ≤ 4294967295) :
    (LCond.cmp .le (.var c) C_MIN).eval Γ s = .ret (decide (v ≤ 640000)) := 
  cmp_of careful (ev_u32 c rfl hv h) (ev_int (2500 * 2 ^ 8) (by decide)) (q := ()) (e := ()) (R := u32) (R' := u32) (x := 5) (y := 1)
    (by decide +kernel) (in_u32 (by omega)) (in_u32 (by omega)) (in_u32 (by omega)) (in_u32 (by omega))

/-- the operand types of `c << 1` -/
theorem chk_shl : Chk .shl (safeT u32) (PTy.builtin s32 : PTy names) () () u32 (ex u32 0 4294967295) 5 1 := by
  refine ⟨by decide +kernel, by decide +kernel, by decide +kernel, by decide +kernel, by decide +kernel, ?_, by decide +kernel,
    by decide +kernel, by decide +kernel⟩
  refine ⟨Or.inl (Or.inl rfl), by decide +kernel, Or.inr ⟨by decide +kernel, ?_⟩⟩
  have e : (PTy.builtin s32 : PTy names).opd.hi.toNat = 2147483646 + 1 := by decide +kernel
  rw [e, pow_succ]
  have h : (1 : Int) ≤ 2 ^ 2147483646 := one_le_pow₀ (by decide)
  show (4294967295 : Int) < 4294967295 * (2 ^ 2147483646 * 2)
  generalize (2 : Int) ^ 2147483646 = z at h
  omega

/-- `c << 1` -/
theorem ev_2c {v : Int} (hv : s c = v) (h : 0 < v ∧ v ≤ 1000000000) :
    Ev Γ s (.bin .shl (.var c) (int 1)) (ex u32 0 4294967295) (2 * v) := by
  refine ev_bin careful (ev_u32 c rfl hv (by omega)) (ev_int 1 (by decide)) chk_shl
     ?_ (in_u32 (by omega)) (in_u32 (by omega)) (in_u32 (by omega)) (fun _ => by omega)
  simp only [imath]
  rw [if_pos (by omega)]
  congr 1
  have : (2 : Int) ^ (1 : Int).toNat = 2 := by decide
  rw [this]; omega

/-- an unsigned division by a positive number of a signed type -/
theorem div_val {T U : PTy names} (h1 : ∀ t u, pBinVal (.ar .div) T U t u = runDiv defaultException u32 T.opd U.opd t u)
    (wT : T.opd.Wf) (wU : U.opd.Wf) (hx : divExc u32 T.opd U.opd = true) (hb : tempBase u32 T.opd U.opd = .ret u32)
    (hl : LitsOk u32 T.opd U.opd) {t u : Int} (ht : T.opd.Has t) (hu : U.opd.Has u) (it : 0 ≤ t ∧ t ≤ 4294967295)
    (iu : 0 < u ∧ u ≤ 4294967295) : pBinVal (.ar .div) T U t u = .ret (t / u) := by
  obtain ⟨B, eB, _, _, k⟩ := runDiv_throw (p := defaultException) rfl (R := u32) (by decide) wT wU (fun h => by rw [hx] at h; cases h)
  rw [hb] at eB; cases eB
  rw [h1, k ht hu (Or.inl rfl), if_neg (fun h => h.2 hl)]
  have c1 : t / u ≤ t := Int.ediv_le_self _ it.1
  have c2 : 0 ≤ t / u := Int.ediv_nonneg it.1 (by omega)
  unfold quotIn
  rw [castTo_of_in (in_u32 it), castTo_of_in (in_u32 (by omega))]
  dsimp only
  rw [if_neg (by omega), tdiv_nonneg it.1, if_neg (by show ¬ (4294967295 : Int) < _; omega)]

/-- motor2.c:84 `(c << 1) / denom` -/
theorem ev_quot {v d : Int} (hv : s c = v) (h : 0 < v ∧ v ≤ 1000000000) (hd : s denom = d) (dr : 0 < d ∧ d ≤ 32767) :
    Ev Γ s (div (.bin .shl (.var c) (int 1)) (.var denom)) (ex u32 0 4294967295) (2 * v / d) := by
  have c1 : 2 * v / d ≤ 2 * v := Int.ediv_le_self _ (by omega)
  have c2 : 0 ≤ 2 * v / d := Int.ediv_nonneg (by omega) (by omega)
  have e1 := ev_s16 denom rfl hd (by omega)
  exact ev_bin' (ev_2c hv h) e1 (by decide +kernel)
    (div_val (fun _ _ => rfl) (by decide +kernel) (by decide +kernel) (by decide +kernel) (by decide +kernel) (by decide +kernel)
      (ev_2c hv h).has e1.has (by omega) (by omega)) (by decide +kernel) (show 0 ≤ _ ∧ _ ≤ 4294967295 by omega)

theorem ev_neg {d : Int} (hd : s denom = d) (dr : -32768 ≤ d ∧ d ≤ 32767) :
    Ev Γ s (.neg (.var denom)) (ex s32 (-2147483648) 2147483647) (-d) := by
  have e : Ev Γ s (.bin (.ar .sub) (.const tInt 0) (.var denom)) (ex s32 (-2147483648) 2147483647) (0 - d) :=
    ev_bin careful (ev_const tInt 0 (by decide +kernel)) (ev_s16 denom rfl hd dr) (q := ()) (e := ()) (R := s32) (x := 0) (y := 1)
      (by decide +kernel) rfl (in_s32 (by omega)) (in_s32 (by omega)) (in_s32 (by omega))
  rw [show -d = 0 - d by omega]
  exact ⟨e.ty, e.eval, e.wf, e.has⟩

/-- motor2.c:86 `(c << 1) / - denom` -/
theorem ev_quot' {v d : Int} (hv : s c = v) (h : 0 < v ∧ v ≤ 1000000000) (hd : s denom = d) (dr : -32768 ≤ d ∧ d < 0) :
    Ev Γ s (div (.bin .shl (.var c) (int 1)) (.neg (.var denom))) (ex u32 0 4294967295) (2 * v / -d) := by
  have c1 : 2 * v / -d ≤ 2 * v := Int.ediv_le_self _ (by omega)
  have c2 : 0 ≤ 2 * v / -d := Int.ediv_nonneg (by omega) (by omega)
  have e1 := ev_neg hd (by omega)
  exact ev_bin' (ev_2c hv h) e1 (by decide +kernel)
    (div_val (fun _ _ => rfl) (by decide +kernel) (by decide +kernel) (by decide +kernel) (by decide +kernel) (by decide +kernel)
      (ev_2c hv h).has e1.has (by omega) (by omega)) (by decide +kernel) (show 0 ≤ _ ∧ _ ≤ 4294967295 by omega)

/-- motor2.c:91 `move - step_no` -/
theorem ev_rest {n k : Int} (hn : s move = n) (hk : s step_no = k) (h : 0 ≤ k ∧ k ≤ n ∧ n ≤ 65535) :
    Ev Γ s (sub (.var move) (.var step_no)) (ex u16 0 65535) (n - k) :=
  ev_bin careful (ev_u16 move rfl hn (by omega)) (ev_u16 step_no rfl hk (by omega)) (q := ()) (e := ()) (R := u16) (x := 0) (y := 0)
    (by decide +kernel) rfl (in_u16 (by omega)) (in_u16 (by omega)) (in_u16 (by omega))

/-- `(move - step_no) * 4` -/
theorem ev_rest4 {n k : Int} (hn : s move = n) (hk : s step_no = k) (h : 0 ≤ k ∧ k ≤ n ∧ n ≤ 65535) :
    Ev Γ s (mul (sub (.var move) (.var step_no)) (int 4)) (ex s32 (-2147483648) 2147483647) ((n - k) * 4) :=
  ev_bin careful (ev_rest hn hk h) (ev_int 4 (by decide)) (q := ()) (e := ()) (R := s32) (x := 0) (y := 0)
    (by decide +kernel) rfl (in_s32 (by omega)) (in_s32 (by omega)) (in_s32 (by omega))

/-- motor2.c:66 -/
theorem ev_mid {n k : Int} (hn : s move = n) (hk : s step_no = k) (h : 0 ≤ k ∧ k ≤ n ∧ n ≤ 65535) :
    Ev Γ s (sub (mul (sub (.var move) (.var step_no)) (int 4)) (int 1)) (ex s32 (-2147483648) 2147483647) ((n - k) * 4 - 1) :=
  ev_bin careful (ev_rest4 hn hk h) (ev_int 1 (by decide)) (q := ()) (e := ()) (R := s32) (x := 0) (y := 0)
    (by decide +kernel) rfl (in_s32 (by omega)) (in_s32 (by omega)) (in_s32 (by omega))

/-- motor2.c:104 -/
theorem ev_brake {n k : Int} (hn : s move = n) (hk : s step_no = k) (h : 0 ≤ k ∧ k ≤ n ∧ n ≤ 65535) :
    Ev Γ s (sub (int 5) (mul (sub (.var move) (.var step_no)) (int 4))) (ex s32 (-2147483648) 2147483647) (5 - (n - k) * 4) :=
  ev_bin careful (ev_int 5 (by decide)) (ev_rest4 hn hk h) (q := ()) (e := ()) (R := s32) (x := 0) (y := 0)
    (by decide +kernel) rfl (in_s32 (by omega)) (in_s32 (by omega)) (in_s32 (by omega))

theorem cmp_u16 (o : Rel) (i j : Fin 30) (hi : Γ i = safeT u16) (hj : Γ j = safeT u16) {x y : Int} (hx : s i = x) (hy : s j = y)
    (xr : 0 ≤ x ∧ x ≤ 65535) (yr : 0 ≤ y ∧ y ≤ 65535) : (LCond.cmp o (.var i) (.var j)).eval Γ s = .ret (rel o x y) := 
  cmp_of careful (ev_u16 i hi hx xr) (ev_u16 j hj hy yr) (q := ()) (e := ()) (R := u16) (R' := u16) (x := 5) (y := 1)
    (by cases o <;> decide +kernel) (in_u16 (by omega)) (in_u16 (by omega)) (in_u16 (by omega)) (in_u16 (by omega))

/-- a comparison of the enumeration -/
theorem cmp_enum (o : Rel) {x y : Int} (hx : s ramp_sts = x) (xr : 0 ≤ x ∧ x ≤ 4294967295) (yr : 0 ≤ y ∧ y ≤ 4294967295) :
    (LCond.cmp o (.var ramp_sts) (enum y) : Co).eval Γ s = .ret (rel o x y) := by
  have e : (LCond.cmp o (.var ramp_sts) (enum y) : Co).eval Γ s = .ret (cRel o enumTy enumTy (s ramp_sts) y) := rfl
  rw [e, hx, cRel_in (show (uac enumTy enumTy).In x from xr) (show (uac enumTy enumTy).In y from yr)]

theorem and_val {R : ITy} {t u : Int} (ht : R.In t) (hu : R.In u) : conv R (cAnd R R (conv R t) (conv R u)) = t.land u := by
  rw [conv_of_in ht, conv_of_in hu]
  refine bit_ext fun i => ?_
  rw [bit_conv_cAnd ht hu, bit_testBit, bit_testBit, bit_testBit, Int.testBit_land]

theorem land_nat {a b : Int} (ha : 0 ≤ a) (hb : 0 ≤ b) : a.land b = ((a.toNat &&& b.toNat : Nat) : Int) := by
  obtain ⟨m, rfl⟩ := Int.eq_ofNat_of_zero_le ha
  obtain ⟨n, rfl⟩ := Int.eq_ofNat_of_zero_le hb
  rfl

/-- a bitwise and with a mask of low bits -/
theorem land_mask {x : Int} (hx : 0 ≤ x) (n : Nat) : x.land (2 ^ n - 1) = x % 2 ^ n := by
  have h1 : (1 : Nat) ≤ 2 ^ n := Nat.one_le_two_pow
  have e : ((2 : Int) ^ n - 1) = ((2 ^ n - 1 : Nat) : Int) := by rw [Nat.cast_sub h1]; simp
  obtain ⟨m, rfl⟩ := Int.eq_ofNat_of_zero_le hx
  rw [e, land_nat (by omega) (by omega), Int.toNat_natCast, Int.toNat_natCast, Nat.and_two_pow_sub_one_eq_mod]
  push_cast
  rfl

/-- motor2.c:68 `move & 1` -/
theorem truth_odd {n : Int} (hn : s move = n) (h : 0 ≤ n ∧ n ≤ 65535) :
    (LCond.truth (band (.var move) (int 1)) : Co).eval Γ s = .ret (decide (n % 2 ≠ 0)) := by
  have e : (LCond.truth (band (.var move) (int 1)) : Co).eval Γ s =
      toBool defaultException (Opd.range s32 0 65535) (conv s32 (cAnd s32 s32 (conv s32 (s move)) (conv s32 1))) := rfl
  rw [e, hn, and_val (in_s32 (by omega)) (in_s32 (by omega))]
  have := land_mask h.1 1
  rw [show (2 : Int) ^ 1 - 1 = 1 by decide, show (2 : Int) ^ 1 = 2 by decide] at this
  rw [this]
  have key : ∀ z ∈ ([0, 1] : List Int), toBool defaultException (Opd.range s32 0 65535) z = .ret (decide (z ≠ 0)) := by
    decide +kernel
  exact key _ (by simp; omega)

/-- motor2.c:120 `ccpr & 0xff` -/
theorem low_val {w : Int} (hw : s ccpr = w) (h : 0 ≤ w ∧ w ≤ 4294967295) :
    assignVal Γ s CCPR1L (band (.var ccpr) (int 0xff)) = .ret (w % 256) := by
  have e : Ev Γ s (band (.var ccpr) (int 0xff)) (ex u32 0 2147483647) (w % 256) := by
    refine ev_bin' (ev_u32 ccpr rfl hw h) (ev_int 0xff (by decide)) (by decide +kernel) ?_ (by decide +kernel)
      (show 0 ≤ _ ∧ _ ≤ 2147483647 by omega)
    have e : pBinVal (.bit .band) (safeT u32) (PTy.builtin s32 : PTy names) w 255 =
      .ret (conv u32 (cAnd u32 u32 (conv u32 w) (conv u32 255))) := rfl
    rw [e, and_val (in_u32 h) (in_u32 (by decide))]
    have := land_mask h.1 8
    rw [show (2 : Int) ^ 8 - 1 = 255 by decide, show (2 : Int) ^ 8 = 256 by decide] at this
    rw [this]
  simp only [assignVal, e.ty, e.eval, ret_bind]
  exact ChkConv.val (x := 0) (by decide +kernel) careful (good _).1 (good _).2 e.wf e.has (show 0 ≤ _ ∧ _ ≤ 255 by omega)

theorem shr8 {w : Int} (h : 0 ≤ w ∧ w ≤ 4294967295) :
    pBinVal .shr (safeT u32) (PTy.builtin s32 : PTy names) w 8 = .ret (w / 256) := by
  have e : pBinVal .shr (safeT u32) (PTy.builtin s32 : PTy names) w 8 =
    (castingHelper defaultException u32 (Opd.ofSafe u32) (Opd.ofBuiltin s32) w 8 >>= fun r =>
      rightShift u32 (dispatchAndReturn defaultException) r.1 r.2 >>= fun rx =>
      if rx.exception then (do
        let v ← opShr.ignored u32 u32 r.1 r.2
        .ret (conv u32 v))
      else rx.value) := rfl
  rw [e, castingHelper_throw (T := Opd.ofSafe u32) (U := Opd.ofBuiltin s32) rfl (by decide +kernel) h (by decide +kernel) (by decide +kernel) (by decide +kernel)
    (by decide +kernel), castTo_of_in (in_u32 h), castTo_of_in (in_u32 (by omega))]
  simp only [orThrow, ret_bind]
  rw [rightShift_eq (by decide) (in_u32 h) (in_u32 (by omega)), if_neg (by decide), if_neg (by decide), if_neg (by omega),
    if_neg (by decide)]
  rfl

/-- motor2.c:119 `CCPR1H = ccpr >> 8`: the library takes the shifted value for zero and cuts it off without a check -/
theorem high_val {w : Int} (hw : s ccpr = w) (h : 0 ≤ w ∧ w ≤ 4294967295) :
    assignVal Γ s CCPR1H (.bin .shr (.var ccpr) (int 8)) = .ret (w / 256 % 256) := by
  have e : assignVal Γ s CCPR1H (.bin .shr (.var ccpr) (int 8)) =
    (pBinVal .shr (safeT u32) (PTy.builtin s32 : PTy names) (s ccpr) 8 >>= fun v => convTo (safeT u8) (ex u32 0 0) v) := rfl
  rw [e, hw, shr8 h, ret_bind]
  have e : convTo (safeT u8) (ex u32 0 0) (w / 256) = .ret (conv u8 (w / 256)) := rfl
  rw [e]
  rfl

/-- example92.cpp:135 `(t + 128) / 256` -/
theorem ev_us {v : Int} (hv : s t = v) (h : 0 ≤ v ∧ v ≤ 1000000000) :
    Ev Γ s (div (add (.var t) (int 128)) (int 256)) (ex u32 0 4294967295) ((v + 128) / 256) := by
  have e1 : Ev Γ s (add (.var t) (int 128)) (ex u32 0 4294967295) (v + 128) :=
    ev_bin careful (ev_u32 t rfl hv (by omega)) (ev_int 128 (by decide)) (q := ()) (e := ()) (R := u32) (x := 0) (y := 0)
      (by decide +kernel) rfl (in_u32 (by omega)) (in_u32 (by omega)) (in_u32 (by omega))
  have e2 := ev_int (s := s) 256 (by decide)
  exact ev_bin' e1 e2 (by decide +kernel)
    (div_val (fun _ _ => rfl) (by decide +kernel) (by decide +kernel) (by decide +kernel) (by decide +kernel) (by decide +kernel)
      e1.has e2.has (by omega) (by omega)) (by decide +kernel) (show 0 ≤ _ ∧ _ ≤ 4294967295 by omega)

end

/-! ### one statement at a time -/

/-- the two states differ at most in the listed variables -/
def Same (l : List (Fin 30)) (s s' : LState 30) : Prop :=
  s'.inp = s.inp ∧ s'.out = s.out ∧ s'.caught = s.caught ∧ ∀ j, j ∉ l → s'.st j = s.st j

theorem Same.refl (l : List (Fin 30)) (s : LState 30) : Same l s s := ⟨rfl, rfl, rfl, fun _ _ => rfl⟩

theorem Same.st {l : List (Fin 30)} {s s' : LState 30} (h : Same l s s') {j : Fin 30} (hj : j ∉ l) : s'.st j = s.st j := h.2.2.2 j hj

theorem Same.write {l : List (Fin 30)} {s s' : LState 30} (h : Same l s s') {j : Fin 30} {v : Int} (hj : j ∈ l) :
    Same l s (s'.write j v) := by
  refine ⟨h.1, h.2.1, h.2.2.1, fun k hk => ?_⟩
  have : k ≠ j := fun e => hk (e ▸ hj)
  simp only [LState.write, if_neg this]
  exact h.st hk

theorem Same.trans {l : List (Fin 30)} {s s1 s2 : LState 30} (h1 : Same l s s1) (h2 : Same l s1 s2) : Same l s s2 :=
  ⟨h2.1.trans h1.1, h2.2.1.trans h1.2.1, h2.2.2.1.trans h1.2.2.1, fun j hj => (h2.st hj).trans (h1.st hj)⟩

theorem Same.mono {l l' : List (Fin 30)} {s s' : LState 30} (h : Same l s s') (hl : l ⊆ l') : Same l' s s' :=
  ⟨h.1, h.2.1, h.2.2.1, fun j hj => h.st fun hh => hj (hl hh)⟩

theorem write_eq (s : LState 30) (j : Fin 30) (v : Int) : (s.write j v).st j = v := by simp [LState.write]
theorem write_ne (s : LState 30) {j k : Fin 30} (v : Int) (h : k ≠ j) : (s.write j v).st k = s.st k := by
  simp [LState.write, h]

/-- the variables that steer the motor -/
structure A where
  sts : Int
  sn : Int
  c : Int
  den : Int
  cp : Int
  sd : Int
deriving DecidableEq

/-- the state `s` has these values (`step_down` is not used before `ramp_max`) -/
structure At (s : LState 30) (a : A) : Prop where
  sts : s.st ramp_sts = a.sts
  sn : s.st step_no = a.sn
  c : s.st c = a.c
  den : s.st denom = a.den
  cp : s.st ccpr = a.cp
  sd : a.sts = 2 → s.st step_down = a.sd

/-- `case ramp_down` over the integers -/
def nextC (d c : Int) : Int := if 0 < d then c - 2 * c / d else c + 2 * c / -d

def downA (n : Int) (a : A) : A :=
  if a.sn = n - 1 then { a with sts := 4 }
  else if nextC (a.den + 4) a.c ≤ 640000 then { a with sts := 2, den := a.den + 4, c := 640000, sd := n - a.sn }
  else { a with den := a.den + 4, c := nextC (a.den + 4) a.c }

/-- what `case ramp_down` relies on -/
def DownOk (n : Int) (a : A) : Prop :=
  (0 ≤ a.sn ∧ a.sn ≤ n ∧ n ≤ 32767) ∧ (0 < a.c ∧ a.c ≤ 1000000000) ∧
  (a.sn = n - 1 ∨ 2 ≤ a.den + 4 ∧ a.den + 4 ≤ 32767 ∨ -32768 ≤ a.den ∧ a.den + 4 < 0)

instance (n : Int) (a : A) : Decidable (DownOk n a) := inferInstanceAs (Decidable (_ ∧ _ ∧ _))

theorem nextC_range {d c : Int} (h : 0 < c ∧ c ≤ 1000000000) (hd : 2 ≤ d ∨ d < 0) : 0 ≤ nextC d c ∧ nextC d c ≤ 3000000000 := by
  unfold nextC
  rcases hd with hd | hd
  · rw [if_pos (by omega)]
    have h1 : 2 * c / d ≤ c := Int.ediv_le_of_le_mul (by omega) (by nlinarith)
    have h2 : 0 ≤ 2 * c / d := Int.ediv_nonneg (by omega) (by omega)
    omega
  · rw [if_neg (by omega)]
    have h1 : 2 * c / -d ≤ 2 * c := Int.ediv_le_self _ (by omega)
    have h2 : 0 ≤ 2 * c / -d := Int.ediv_nonneg (by omega) (by omega)
    omega

abbrev steer : List (Fin 30) := [ramp_sts, denom, c, step_down]

/-- `denom += 4` -/
theorem denom4_ends {s : LState 30} {d : Int} (hd : s.st denom = d) (dr : -32768 ≤ d ∧ d + 4 ≤ 32767) :
    Ends Γ (.opAssign (.ar .add) denom (int 4)) s (.ret ()) (s.write denom (d + 4)) :=
  ends_opAssign (opAssign_val careful good (T := safeT s16) (S := ex s32 (-2147483648) 2147483647) rfl
    (show -32768 ≤ _ ∧ _ ≤ 32767 by omega) hd (ev_int 4 (by decide)) (q := ()) (e := ()) (R := s32)
    (x := 0) (y := 0) (z := 0) (by decide +kernel) (by decide +kernel) rfl (in_s32 (by omega)) (in_s32 (by omega)) (in_s32 (by omega))
    (show -32768 ≤ _ ∧ _ ≤ 32767 by omega))

theorem caseDown_ends {s : LState 30} {n : Int} {a : A} (ha : At s a) (hn : s.st move = n) (h : DownOk n a) :
    ∃ s', Ends Γ caseDown s (.ret ()) s' ∧ At s' (downA n a) ∧ Same steer s s' := by
  obtain ⟨h1, h2, h3⟩ := h
  have c1 := cmp_last ha.sn (by omega) hn (by omega)
  unfold downA
  by_cases hl : a.sn = n - 1
  · rw [if_pos hl]
    refine ⟨s.write ramp_sts 4, ends_ite c1 ?_, ⟨rfl, ha.sn, ha.c, ha.den, ha.cp, (by nofun)⟩, (Same.refl _ s).write (by decide)⟩
    rw [decide_eq_true hl]
    exact ends_assign rfl
  · rw [if_neg hl]
    have nr := nextC_range (d := a.den + 4) h2 (by omega)
    let s1 := s.write denom (a.den + 4)
    let s2 := s1.write c (nextC (a.den + 4) a.c)
    have hc1 : s1.st c = a.c := ha.c
    have hd1 : s1.st denom = a.den + 4 := rfl
    have e1 : Ends Γ (.opAssign (.ar .add) denom (int 4)) s (.ret ()) s1 := denom4_ends ha.den (by omega)
    have e2 : Ends Γ (.ite (.cmp .gt (.var denom) (int 0))
        (.opAssign (.ar .sub) c (div (.bin .shl (.var c) (int 1)) (.var denom)))
        (.opAssign (.ar .add) c (div (.bin .shl (.var c) (int 1)) (.neg (.var denom))))) s1 (.ret ()) s2 := by
      refine ends_ite (cmp_pos hd1 (by omega)) ?_
      by_cases hp : 0 < a.den + 4
      · rw [decide_eq_true hp]
        have nr' := nr
        simp only [nextC, if_pos hp] at nr'
        have q1 : 2 * a.c / (a.den + 4) ≤ 2 * a.c := Int.ediv_le_self _ (by omega)
        have q2 : 0 ≤ 2 * a.c / (a.den + 4) := Int.ediv_nonneg (by omega) (by omega)
        refine ends_opAssign (opAssign_val careful good (T := safeT u32) (S := ex u32 0 4294967295) rfl
          (show 0 ≤ _ ∧ _ ≤ 4294967295 by omega) hc1 (ev_quot hc1 h2 hd1 (by omega)) (q := ()) (e := ()) (R := u32)
          (x := 0) (y := 0) (z := 0) (by decide +kernel) (by decide +kernel) ?_ (in_u32 (by omega)) (in_u32 (by omega))
          (in_u32 (by omega)) (show 0 ≤ _ ∧ _ ≤ 4294967295 by omega))
        simp only [imath, nextC, if_pos hp]
      · rw [decide_eq_false hp]
        have nr' := nr
        simp only [nextC, if_neg hp] at nr'
        have q1 : 2 * a.c / -(a.den + 4) ≤ 2 * a.c := Int.ediv_le_self _ (by omega)
        have q2 : 0 ≤ 2 * a.c / -(a.den + 4) := Int.ediv_nonneg (by omega) (by omega)
        refine ends_opAssign (opAssign_val careful good (T := safeT u32) (S := ex u32 0 4294967295) rfl
          (show 0 ≤ _ ∧ _ ≤ 4294967295 by omega) hc1 (ev_quot' hc1 h2 hd1 (by omega)) (q := ()) (e := ()) (R := u32)
          (x := 0) (y := 0) (z := 0) (by decide +kernel) (by decide +kernel) ?_ (in_u32 (by omega)) (in_u32 (by omega))
          (in_u32 (by omega)) (show 0 ≤ _ ∧ _ ≤ 4294967295 by omega))
        simp only [imath, nextC, if_neg hp]
    have c3 := cmp_min (s := s2.st) (v := nextC (a.den + 4) a.c) rfl (by omega)
    have hs2 : Same steer s s2 := ((Same.refl _ s).write (by decide)).write (by decide)
    by_cases hm : nextC (a.den + 4) a.c ≤ 640000
    · rw [if_pos hm]
      let s3 := s2.write ramp_sts 2
      let s4 := s3.write step_down (n - a.sn)
      refine ⟨s4.write c 640000, ends_ite c1 ?_, ⟨rfl, ha.sn, rfl, rfl, ha.cp, fun _ => rfl⟩,
        ((hs2.write (by decide)).write (by decide)).write (by decide)⟩
      rw [decide_eq_false hl]
      refine ends_seq e1 (ends_seq e2 (ends_ite c3 ?_))
      rw [decide_eq_true hm]
      have e3 : Ends Γ (.assign ramp_sts ramp_max) s2 (.ret ()) s3 := ends_assign rfl
      have e4 : Ends Γ (.assign step_down (sub (.var move) (.var step_no))) s3 (.ret ()) s4 :=
        assign_of careful good (ev_rest (n := n) (k := a.sn) hn ha.sn (by omega)) (S := safeT u16) rfl (x := 0) (by decide +kernel)
          (show 0 ≤ _ ∧ _ ≤ 65535 by omega)
      exact ends_seq e3 (ends_seq e4 (ends_assign rfl))
    · rw [if_neg hm]
      refine ⟨s2, ends_ite c1 ?_, ⟨ha.sts, ha.sn, rfl, rfl, ha.cp, ha.sd⟩, hs2⟩
      rw [decide_eq_false hl]
      refine ends_seq e1 (ends_seq e2 (ends_ite c3 ?_))
      rw [decide_eq_false hm]
      exact ends_skip _

/-- `case ramp_up` over the integers -/
def upA (n : Int) (a : A) : A :=
  if a.sn = (n - 1) / 2 then
    if n % 2 = 0 then { a with sts := 3, den := (n - a.sn) * 4 - 1 + 4 }
    else downA n { a with sts := 3, den := (n - a.sn) * 4 - 1 }
  else downA n a

/-- what `case ramp_up` relies on -/
def UpOk (n : Int) (a : A) : Prop :=
  1 ≤ n ∧ if a.sn = (n - 1) / 2 then (n - a.sn) * 4 + 3 ≤ 32767 ∧ DownOk n { a with sts := 3, den := (n - a.sn) * 4 - 1 }
  else DownOk n a

instance (n : Int) (a : A) : Decidable (UpOk n a) := by unfold UpOk; infer_instance

theorem caseUp_ends {s : LState 30} {n : Int} {a : A} (ha : At s a) (hn : s.st move = n) (hm : s.st midpt = (n - 1) / 2)
    (h : UpOk n a) : ∃ s', Ends Γ caseUp s (.ret ()) s' ∧ At s' (upA n a) ∧ Same steer s s' := by
  obtain ⟨h0, h⟩ := h
  unfold upA
  by_cases hk : a.sn = (n - 1) / 2
  · rw [if_pos hk] at h
    rw [if_pos hk]
    have hr := h.2.1
    simp only at hr
    have c1 := cmp_u16 .eq step_no midpt rfl rfl ha.sn hm (by omega) (by omega)
    let s1 := s.write ramp_sts 3
    let s2 := s1.write denom ((n - a.sn) * 4 - 1)
    have c2 := cmp_u16 (s := s1.st) .gt step_no move rfl rfl ha.sn hn (by omega) (by omega)
    have e1 : Ends Γ (.assign ramp_sts ramp_down) s (.ret ()) s1 := ends_assign rfl
    have e2 : Ends Γ (.ite (.cmp .gt (.var step_no) (.var move))
        (.assign denom (add (mul (sub (.var step_no) (.var move)) (int 4)) (int 1)))
        (.assign denom (sub (mul (sub (.var move) (.var step_no)) (int 4)) (int 1)))) s1 (.ret ()) s2 := by
      refine ends_ite c2 ?_
      rw [show rel .gt a.sn n = false from decide_eq_false (by omega)]
      exact assign_of careful good (ev_mid (n := n) (k := a.sn) hn ha.sn (by omega)) (S := safeT s16) rfl (x := 0)
        (by decide +kernel) (show -32768 ≤ _ ∧ _ ≤ 32767 by omega)
    have c3 : (LCond.not (.truth (band (.var move) (int 1))) : Co).eval Γ s2.st = .ret (!decide (n % 2 ≠ 0)) := by
      simp only [LCond.eval]
      have := truth_odd (s := s2.st) hn (by omega)
      simp only [LCond.eval] at this
      rw [this]; rfl
    have a2 : At s2 { a with sts := 3, den := (n - a.sn) * 4 - 1 } := ⟨rfl, ha.sn, ha.c, rfl, ha.cp, (by nofun)⟩
    have hs2 : Same steer s s2 := ((Same.refl _ s).write (by decide)).write (by decide)
    by_cases he : n % 2 = 0
    · rw [if_pos he]
      refine ⟨s2.write denom ((n - a.sn) * 4 - 1 + 4), ends_ite c1 ?_, ⟨rfl, ha.sn, ha.c, rfl, ha.cp, (by nofun)⟩, hs2.write (by decide)⟩
      rw [show rel .eq a.sn ((n - 1) / 2) = true from decide_eq_true hk]
      refine ends_seq e1 (ends_seq e2 (ends_ite c3 ?_))
      rw [show (!decide (n % 2 ≠ 0)) = true by simp [he]]
      exact denom4_ends a2.den (by omega)
    · rw [if_neg he]
      obtain ⟨s', e4, a4, f4⟩ := caseDown_ends a2 (n := n) hn h.2
      refine ⟨s', ends_ite c1 ?_, a4, hs2.trans f4⟩
      rw [show rel .eq a.sn ((n - 1) / 2) = true from decide_eq_true hk]
      refine ends_seq e1 (ends_seq e2 (ends_ite c3 ?_))
      rw [show (!decide (n % 2 ≠ 0)) = false by simp [he]]
      exact e4
  · rw [if_neg hk] at h
    rw [if_neg hk]
    have hr := h.1
    have c1 := cmp_u16 .eq step_no midpt rfl rfl ha.sn hm (by omega) (by omega)
    obtain ⟨s', e4, a4, f4⟩ := caseDown_ends ha hn h
    refine ⟨s', ends_ite c1 ?_, a4, f4⟩
    rw [show rel .eq a.sn ((n - 1) / 2) = false from decide_eq_false hk]
    exact e4

/-- `case ramp_max` over the integers -/
def maxA (n : Int) (a : A) : A := if a.sn = a.sd then { a with sts := 3, den := 5 - (n - a.sn) * 4 } else a

theorem caseMax_ends {s : LState 30} {n : Int} {a : A} (ha : At s a) (hn : s.st move = n) (hs : a.sts = 2) (h : 0 ≤ a.sn ∧ a.sn ≤ 65535)
    (hd : 0 ≤ a.sd ∧ a.sd ≤ n ∧ n ≤ 32767) (hb : -32768 ≤ 5 - (n - a.sd) * 4) :
    ∃ s', Ends Γ caseMax s (.ret ()) s' ∧ At s' (maxA n a) ∧ Same steer s s' := by
  have c1 := cmp_u16 .eq step_no step_down rfl rfl ha.sn (ha.sd hs) (by omega) (by omega)
  unfold maxA
  by_cases hk : a.sn = a.sd
  · rw [if_pos hk]
    let s1 := s.write ramp_sts 3
    have e1 : Ends Γ (.assign ramp_sts ramp_down) s (.ret ()) s1 := ends_assign rfl
    have e2 : Ends Γ (.assign denom (sub (int 5) (mul (sub (.var move) (.var step_no)) (int 4)))) s1 (.ret ())
        (s1.write denom (5 - (n - a.sn) * 4)) :=
      assign_of careful good (ev_brake (n := n) (k := a.sn) hn ha.sn (by omega)) (S := safeT s16) rfl (x := 0)
        (by decide +kernel) (show -32768 ≤ _ ∧ _ ≤ 32767 by omega)
    refine ⟨s1.write denom (5 - (n - a.sn) * 4), ends_ite c1 ?_, ⟨rfl, ha.sn, ha.c, rfl, ha.cp, (by nofun)⟩, ((Same.refl _ s).write (by decide)).write (by decide)⟩
    rw [show rel .eq a.sn a.sd = true from decide_eq_true hk]
    exact ends_seq e1 e2
  · rw [if_neg hk]
    refine ⟨s, ends_ite c1 ?_, ha, Same.refl _ s⟩
    rw [show rel .eq a.sn a.sd = false from decide_eq_false hk]
    exact ends_skip s

/-! ### the registers -/

/-- a comparison of `ix` -/
theorem ix_eq {s : Fin 30 → Int} {a : Int} (ha : s ix = a) (h : 0 ≤ a ∧ a ≤ 3) (k : Int) (hk : k ∈ ([0, 1, 2] : List Int)) :
    (LCond.cmp .eq (.var ix) (.const index k) : Co).eval Γ s = .ret (decide (a = k)) := by
  have key : ∀ k ∈ ([0, 1, 2] : List Int), ∀ a ∈ ([0, 1, 2, 3] : List Int),
      (LCond.cmp .eq (.var ix) (.const index k) : Co).eval Γ (fun _ => a) = .ret (decide (a = k)) := by
    decide +kernel
  rw [← key k hk a (by simp; omega), ← ha]
  rfl

/-- the variables for the outputs -/
abbrev outs : List (Fin 30) := [ix, phase, CCP1CON, CCP2CON, CCPR1H, CCPR1L, CCPR2H, CCPR2L]

theorem lookup_ends {s : LState 30} {a : Int} (ha : s.st phase_ix = a) (h : 0 ≤ a ∧ a ≤ 3) :
    ∃ s', Ends Γ lookup s (.ret ()) s' ∧ s'.st phase ∈ ([0x909, 0x908, 0x808, 0x809] : List Int) ∧ Same outs s s' := by
  have e1 : Ends Γ (.assign ix (.var phase_ix)) s (.ret ()) (s.write ix a) := by
    refine ends_assign ?_
    have key : ∀ a ∈ ([0, 1, 2, 3] : List Int), assignVal Γ (fun _ => a) ix (.var phase_ix) = .ret a := by decide +kernel
    rw [← key a (by simp; omega), ← ha]
    rfl
  have hx : (s.write ix a).st ix = a := write_eq ..
  have f1 : Same outs s (s.write ix a) := (Same.refl _ s).write (by decide)
  by_cases h0 : a = 0
  · refine ⟨(s.write ix a).write phase 0x909, ends_seq e1 (ends_ite (ix_eq hx h 0 (by simp)) ?_), by rw [write_eq]; decide, f1.write (by decide)⟩
    rw [if_pos (by simp [h0])]; exact ends_assign rfl
  by_cases h1 : a = 1
  · refine ⟨(s.write ix a).write phase 0x908, ends_seq e1 (ends_ite (ix_eq hx h 0 (by simp)) ?_), by rw [write_eq]; decide, f1.write (by decide)⟩
    rw [if_neg (by simp [h0])]
    refine ends_ite (ix_eq hx h 1 (by simp)) ?_
    rw [if_pos (by simp [h1])]; exact ends_assign rfl
  by_cases h2 : a = 2
  · refine ⟨(s.write ix a).write phase 0x808, ends_seq e1 (ends_ite (ix_eq hx h 0 (by simp)) ?_), by rw [write_eq]; decide, f1.write (by decide)⟩
    rw [if_neg (by simp [h0])]
    refine ends_ite (ix_eq hx h 1 (by simp)) ?_
    rw [if_neg (by simp [h1])]
    refine ends_ite (ix_eq hx h 2 (by simp)) ?_
    rw [if_pos (by simp [h2])]; exact ends_assign rfl
  · refine ⟨(s.write ix a).write phase 0x809, ends_seq e1 (ends_ite (ix_eq hx h 0 (by simp)) ?_), by rw [write_eq]; decide, f1.write (by decide)⟩
    rw [if_neg (by simp [h0])]
    refine ends_ite (ix_eq hx h 1 (by simp)) ?_
    rw [if_neg (by simp [h1])]
    refine ends_ite (ix_eq hx h 2 (by simp)) ?_
    rw [if_neg (by simp [h2])]; exact ends_assign rfl

theorem outputs_ends {s : LState 30} {a : Int} (ha : s.st phase_ix = a) (h : 0 ≤ a ∧ a ≤ 3) :
    ∃ s', Ends Γ outputs s (.ret ()) s' ∧ Same outs s s' := by
  obtain ⟨s1, e1, p1, f1⟩ := lookup_ends ha h
  have e2 : Ends Γ (.assign CCP1CON (band (.var phase) (int 0xff))) s1 (.ret ()) (s1.write CCP1CON (s1.st phase % 256)) := by
    refine ends_assign ?_
    have key : ∀ p ∈ ([0x909, 0x908, 0x808, 0x809] : List Int),
        assignVal Γ (fun _ => p) CCP1CON (band (.var phase) (int 0xff)) = .ret (p % 256) := by decide +kernel
    exact key _ p1
  have p2 : (s1.write CCP1CON (s1.st phase % 256)).st phase ∈ ([0x909, 0x908, 0x808, 0x809] : List Int) := p1
  have e3 : Ends Γ (.assign CCP2CON (.bin .shr (.var phase) (int 8))) (s1.write CCP1CON (s1.st phase % 256)) (.ret ())
      ((s1.write CCP1CON (s1.st phase % 256)).write CCP2CON (s1.st phase / 256)) := by
    refine ends_assign ?_
    have key : ∀ p ∈ ([0x909, 0x908, 0x808, 0x809] : List Int),
        assignVal Γ (fun _ => p) CCP2CON (.bin .shr (.var phase) (int 8)) = .ret (p / 256) := by decide +kernel
    exact key _ p1
  exact ⟨_, ends_seq e1 (ends_seq e2 e3), (f1.write (by decide)).write (by decide)⟩

theorem timer_ends {s : LState 30} {w : Int} (hw : s.st ccpr = w) (h : 0 ≤ w ∧ w ≤ 4294967295) :
    ∃ s', Ends Γ timer s (.ret ()) s' ∧ Same outs s s' := by
  let s1 := s.write CCPR1H (w / 256 % 256)
  let s2 := s1.write CCPR2H (w / 256 % 256)
  let s3 := s2.write CCPR1L (w % 256)
  have e1 : Ends Γ (.assign CCPR1H (.bin .shr (.var ccpr) (int 8))) s (.ret ()) s1 := ends_assign (high_val hw h)
  have e2 : Ends Γ (.assign CCPR2H (.var CCPR1H)) s1 (.ret ()) s2 := ends_assign rfl
  have e3 : Ends Γ (.assign CCPR1L (band (.var ccpr) (int 0xff))) s2 (.ret ()) s3 := ends_assign (low_val hw h)
  have e4 : Ends Γ (.assign CCPR2L (.var CCPR1L)) s3 (.ret ()) (s3.write CCPR2L (w % 256)) := ends_assign rfl
  exact ⟨_, ends_seq e1 (ends_seq e2 (ends_seq e3 e4)), ((((Same.refl _ s).write (by decide)).write (by decide)).write
    (by decide)).write (by decide)⟩

theorem stepPhase_ends {s : LState 30} {a b : Int} (ha : s.st phase_ix = a) (h : 0 ≤ a ∧ a ≤ 255) (hb : s.st phase_inc = b)
    (h' : b = 1 ∨ b = 255) : Ends Γ stepPhase s (.ret ()) (s.write phase_ix ((a + b) % 4)) := by
  refine ends_assign ?_
  have key : ∀ a : Fin 256, ∀ b ∈ ([1, 255] : List Int),
      assignVal Γ (fun j => if j = phase_ix then (a : Int) else b) phase_ix (band (add (.var phase_ix) (.var phase_inc)) (int 3)) =
        .ret (((a : Int) + b) % 4) := by
    decide +kernel
  have := key ⟨a.toNat, by omega⟩ b (by simp; omega)
  rw [show (((⟨a.toNat, by omega⟩ : Fin 256) : Nat) : Int) = a by simp; omega] at this
  rw [← this, ← ha, ← hb]
  rfl

/-! ### one interrupt -/

/-- a compound assignment whose result does not fit the variable throws -/
theorem opAssign_throw {s : Fin 30 → Int} {o : Op2} {i : Fin 30} {e : Ex} {S T U : PTy names}
    {t u v : Int} (hi : Γ i = T) (ht : T.opd.Has t) (hs : s i = t) (ha : Ev Γ s e U u) {R : ITy}
    {x y z : Int} (h : Chk o T U () () R S x y) (hc : ChkConv T S z) (hv : imath o t u = some v)
    (hS : ¬ T.opd.Has v) : ∃ x, opAssignVal Γ s o i e = .thrown x := by
  subst hi hs
  simp only [opAssignVal, ha.ty, ha.eval, ret_bind, h.ty]
  rcases pbin_good careful (good i).1 ha.wf h.covered ht ha.has with ⟨S', v', e1, w, e2, h3, e3⟩ | ⟨x, hx⟩ | hx
  · rw [h.ty] at e1; cases e1
    rw [hv] at e3; cases e3
    rw [e2, ret_bind]
    have cc : ConvCovered (Γ i) S := ⟨(good i).1, (good i).2, hc.safe.elim Or.inl (fun h => Or.inr (Or.inl h))⟩
    rcases conv_good careful w cc h3 with h' | h' | h'
    · exact absurd h'.2 hS
    · exact h'
    · exact absurd h' (phase1_of (conv_phase w cc) hc.hx hc.acc h3)
  · exact ⟨x, by rw [hx]; rfl⟩
  · exact absurd hx (phase2_of (pbin_phase careful (good i).1 ha.wf h.covered) h.hx h.hy h.acc ht ha.has)

theorem ends_opAssign_throw {s : LState 30} {o : Op2} {i : Fin 30} {e : Ex} {x : Err}
    (h : opAssignVal Γ s.st o i e = .thrown x) : Ends Γ (.opAssign o i e) s (.thrown x) s := ⟨1, fun f hf => by
  obtain ⟨g, rfl⟩ : ∃ g, f = g + 1 := ⟨f - 1, by omega⟩
  simp only [LStmt.exec, h, storing]⟩

/-- the motor is on its way from `p` in direction `d`, for `n` steps -/
structure Live (s : LState 30) (p d n : Int) (a : A) : Prop where
  at_ : At s a
  mv : s.st move = n
  mid : s.st midpt = (n - 1) / 2
  inc : s.st pos_inc = d
  dd : d = 1 ∨ d = -1
  pinc : s.st phase_inc = 1 ∨ s.st phase_inc = 255
  ph : 0 ≤ s.st phase_ix ∧ s.st phase_ix ≤ 3
  pos : s.st motor_pos = p + d * a.sn
  run : s.st run_flg = 1
  nr : 1 ≤ n ∧ n ≤ 32767

/-- the `switch` of the handler -/
abbrev switch : St :=
  .ite (.cmp .eq (.var ramp_sts) ramp_up) caseUp <|
  .ite (.cmp .eq (.var ramp_sts) ramp_down) caseDown <|
  .ite (.cmp .eq (.var ramp_sts) ramp_max) caseMax
  caseLast

/-- the last part of the handler -/
abbrev advance : St := block [
  .opAssign (.ar .add) motor_pos (.var pos_inc),
  .inc step_no,
  timer,
  .ite (.cmp .ne (.var ramp_sts) ramp_last) stepPhase .skip,
  outputs]

/-- the state of a live motor after some more assignments -/
theorem Live.same {s s' : LState 30} {p d n : Int} {a a' : A} (h : Live s p d n a) {l : List (Fin 30)} (f : Same l s s')
    (ha : At s' a') (hl : ∀ j ∈ ([move, midpt, pos_inc, phase_inc, phase_ix, motor_pos, run_flg] : List (Fin 30)), j ∉ l)
    (he : a'.sn = a.sn) : Live s' p d n a' where
  at_ := ha
  mv := (f.st (hl _ (by decide))).trans h.mv
  mid := (f.st (hl _ (by decide))).trans h.mid
  inc := (f.st (hl _ (by decide))).trans h.inc
  dd := h.dd
  pinc := by rw [f.st (hl _ (by decide))]; exact h.pinc
  ph := by rw [f.st (hl _ (by decide))]; exact h.ph
  pos := by rw [f.st (hl _ (by decide)), he]; exact h.pos
  run := (f.st (hl _ (by decide))).trans h.run
  nr := h.nr

theorem At.same {s s' : LState 30} {a : A} (h : At s a) {l : List (Fin 30)} (f : Same l s s')
    (hl : ∀ j ∈ ([ramp_sts, step_no, Motor2.c, denom, ccpr, step_down] : List (Fin 30)), j ∉ l) : At s' a where
  sts := (f.st (hl _ (by decide))).trans h.sts
  sn := (f.st (hl _ (by decide))).trans h.sn
  c := (f.st (hl _ (by decide))).trans h.c
  den := (f.st (hl _ (by decide))).trans h.den
  cp := (f.st (hl _ (by decide))).trans h.cp
  sd := fun h2 => (f.st (hl _ (by decide))).trans (h.sd h2)

/-- `motor_pos += pos_inc` -/
theorem chk_pos : Chk (.ar .add) (safeT s16) (safeT s16) () () s16 (ex s16 (-32768) 32767) 0 0 := by decide +kernel

theorem advance_ends {s : LState 30} {p d n : Int} {a : A} (h : Live s p d n a) (hs : 1 ≤ a.sts ∧ a.sts ≤ 4)
    (hn : 0 ≤ a.sn ∧ a.sn ≤ 65534) (hp : -32768 ≤ p + d * a.sn ∧ p + d * a.sn ≤ 32767)
    (hp' : -32768 ≤ p + d * (a.sn + 1) ∧ p + d * (a.sn + 1) ≤ 32767) (hc : 0 ≤ a.cp ∧ a.cp ≤ 4294967295) :
    ∃ s', Ends Γ advance s (.ret ()) s' ∧ Live s' p d n { a with sn := a.sn + 1 } := by
  have hd := h.dd
  have hq : p + d * (a.sn + 1) = p + d * a.sn + d := by ring
  rw [hq] at hp'
  let s1 := s.write motor_pos (p + d * a.sn + d)
  let s2 := s1.write step_no (a.sn + 1)
  have e1 : Ends Γ (.opAssign (.ar .add) motor_pos (.var pos_inc)) s (.ret ()) s1 :=
    ends_opAssign (opAssign_val careful good (T := safeT s16) (S := ex s16 (-32768) 32767) rfl hp h.pos
      (ev_s16 pos_inc rfl h.inc (by omega)) (q := ()) (e := ()) (R := s16)
      (x := 0) (y := 0) (z := 0) chk_pos (by decide +kernel) rfl (in_s16 hp) (in_s16 (by omega)) (in_s16 hp') hp')
  have e2 : Ends Γ (.inc step_no) s1 (.ret ()) s2 :=
    ends_inc (opAssign_val careful good (T := safeT u16) (S := ex s32 (-2147483648) 2147483647) rfl
      (show 0 ≤ _ ∧ _ ≤ 65535 by omega) (t := a.sn) h.at_.sn (ev_const tInt 1 (by decide +kernel)) (q := ()) (e := ()) (R := s32)
      (x := 0) (y := 0) (z := 0) (by decide +kernel) (by decide +kernel) rfl (in_s32 (by omega)) (in_s32 (by omega))
      (in_s32 (by omega)) (show 0 ≤ _ ∧ _ ≤ 65535 by omega))
  obtain ⟨s3, e3, f3⟩ := timer_ends (s := s2) (w := a.cp) h.at_.cp hc
  have h2 : Live s2 p d n { a with sn := a.sn + 1 } :=
    ⟨⟨h.at_.sts, rfl, h.at_.c, h.at_.den, h.at_.cp, h.at_.sd⟩, h.mv, h.mid, h.inc, h.dd, h.pinc, h.ph, hq.symm, h.run, h.nr⟩
  have h3 : Live s3 p d n { a with sn := a.sn + 1 } := h2.same f3 (h2.at_.same f3 (by decide)) (by decide) rfl
  have c4 := cmp_enum (s := s3.st) .ne (y := 4) h3.at_.sts (by simp only; omega) (by omega)
  have e4 : ∃ s4, Ends Γ (.ite (.cmp .ne (.var ramp_sts) ramp_last) stepPhase .skip) s3 (.ret ()) s4 ∧
      Live s4 p d n { a with sn := a.sn + 1 } := by
    by_cases h4 : a.sts = 4
    · refine ⟨s3, ends_ite c4 ?_, h3⟩
      rw [show rel .ne a.sts 4 = false by simp [rel, h4]]
      exact ends_skip _
    · refine ⟨s3.write phase_ix ((s3.st phase_ix + s3.st phase_inc) % 4), ends_ite c4 ?_, ?_⟩
      · rw [show rel .ne a.sts 4 = true by simp [rel, h4]]
        have := h3.ph
        exact stepPhase_ends rfl (by omega) rfl h3.pinc
      · exact ⟨⟨h3.at_.sts, h3.at_.sn, h3.at_.c, h3.at_.den, h3.at_.cp, h3.at_.sd⟩, h3.mv, h3.mid, h3.inc, h3.dd, h3.pinc,
          by rw [write_eq]; omega, h3.pos, h3.run, h3.nr⟩
  obtain ⟨s4, e4, h4⟩ := e4
  obtain ⟨s5, e5, f5⟩ := outputs_ends (s := s4) rfl h4.ph
  exact ⟨s5, ends_seq e1 (ends_seq e2 (ends_seq e3 (ends_seq e4 e5))),
    h4.same f5 (h4.at_.same f5 (by decide)) (by decide) rfl⟩

/-- the position leaves its range -/
theorem advance_throws {s : LState 30} {p d n : Int} {a : A} (h : Live s p d n a)
    (hp : -32768 ≤ p + d * a.sn ∧ p + d * a.sn ≤ 32767)
    (hp' : ¬ (-32768 ≤ p + d * (a.sn + 1) ∧ p + d * (a.sn + 1) ≤ 32767)) :
    ∃ x, Ends Γ advance s (.thrown x) s := by
  have hd := h.dd
  have hq : p + d * (a.sn + 1) = p + d * a.sn + d := by ring
  rw [hq] at hp'
  obtain ⟨x, hx⟩ := opAssign_throw (T := safeT s16) rfl hp h.pos (ev_s16 pos_inc rfl h.inc (by omega))
    (z := 0) chk_pos (by decide +kernel) rfl hp'
  exact ⟨x, ends_seq_throw (ends_opAssign_throw hx)⟩

/-- the statements before the `switch` -/
theorem begin_ends {s : LState 30} {p d n : Int} {a : A} (h : Live s p d n a) (hc : 0 ≤ a.c ∧ a.c ≤ 1000000000) :
    Ends Γ (.assign t (.var c)) s (.ret ()) (s.write t a.c) ∧
    Ends Γ (.assign us (div (add (.var t) (int 128)) (int 256))) (s.write t a.c) (.ret ())
      ((s.write t a.c).write us ((a.c + 128) / 256)) ∧
    Live ((s.write t a.c).write us ((a.c + 128) / 256)) p d n a := by
  refine ⟨?_, ?_, ?_⟩
  · exact assign_of careful good (ev_u32 c rfl h.at_.c (by omega)) (S := safeT u32) rfl (x := 0) (by decide +kernel)
      (show 0 ≤ _ ∧ _ ≤ 4294967295 by omega)
  · exact assign_of careful good (ev_us (v := a.c) rfl hc) (S := safeT s32) rfl (x := 0) (by decide +kernel)
      (show -2147483648 ≤ _ ∧ _ ≤ 2147483647 by omega)
  · have f : Same [t, us] s ((s.write t a.c).write us ((a.c + 128) / 256)) :=
      ((Same.refl _ s).write (by decide)).write (by decide)
    exact h.same f (h.at_.same f (by decide)) (by decide) rfl

theorem chk_ccpr : Chk (.ar .add) (safeT u32) (safeT u32) () () u32 (ex u32 0 4294967295) 0 0 := by decide +kernel

/-- the interrupt counter leaves its range -/
theorem turn_overflow {s : LState 30} {p d n : Int} {a : A} (h : Live s p d n a) (hc : 0 ≤ a.c ∧ a.c ≤ 1000000000)
    (hp : 0 ≤ a.cp ∧ a.cp ≤ 4294967295) (ho : 4294967295 < a.cp + a.c) :
    ∃ x s', Ends Γ turn s (.thrown x) s' ∧ s'.st motor_pos = s.st motor_pos := by
  obtain ⟨e1, e2, h2⟩ := begin_ends h hc
  obtain ⟨x, hx⟩ := opAssign_throw (T := safeT u32) (v := a.cp + a.c) rfl hp h2.at_.cp (ev_u32 c rfl h2.at_.c (by omega))
    (z := 0) chk_ccpr (by decide +kernel) rfl (fun hh => by have := hh.2; change _ ≤ (4294967295 : Int) at this; omega)
  exact ⟨x, _, ends_seq e1 (ends_seq e2 (ends_seq_throw (ends_opAssign_throw hx))), rfl⟩

/-- up to the `switch` -/
theorem turn_begin {s : LState 30} {p d n : Int} {a : A} (h : Live s p d n a) (hc : 0 ≤ a.c ∧ a.c ≤ 1000000000)
    (hp : 0 ≤ a.cp) (ho : a.cp + a.c ≤ 4294967295) :
    ∃ s1, Live s1 p d n { a with cp := a.cp + a.c } ∧ s1.st motor_pos = s.st motor_pos ∧
      ∀ r s', Ends Γ (.seq switch (.ite (.cmp .ne (.var ramp_sts) ramp_idle) advance .skip)) s1 r s' → Ends Γ turn s r s' := by
  obtain ⟨e1, e2, h2⟩ := begin_ends h hc
  have e3 := ends_opAssign (opAssign_val careful good (T := safeT u32) (v := a.cp + a.c) (S := ex u32 0 4294967295) rfl
    (show 0 ≤ _ ∧ _ ≤ 4294967295 by omega) h2.at_.cp (ev_u32 c rfl h2.at_.c (by omega)) (q := ()) (e := ()) (R := u32)
    (z := 0) chk_ccpr (by decide +kernel) rfl (in_u32 (by omega)) (in_u32 (by omega)) (in_u32 (by omega))
    (show 0 ≤ _ ∧ _ ≤ 4294967295 by omega))
  refine ⟨_, ?_, ?_, fun r s' hh => ends_seq e1 (ends_seq e2 (ends_seq e3 hh))⟩
  · exact ⟨⟨h.at_.sts, h.at_.sn, h.at_.c, h.at_.den, rfl, h.at_.sd⟩, h.mv, h.mid, h.inc, h.dd, h.pinc, h.ph, h.pos, h.run, h.nr⟩
  · rfl

/-- an interrupt that takes a step, given what the `switch` does -/
theorem turn_step {s : LState 30} {p d n : Int} {a a2 : A} (h : Live s p d n a) (hc : 0 ≤ a.c ∧ a.c ≤ 1000000000)
    (hp : 0 ≤ a.cp) (ho : a.cp + a.c ≤ 4294967295)
    (hsw : ∀ s1, Live s1 p d n { a with cp := a.cp + a.c } → ∃ s2, Ends Γ switch s1 (.ret ()) s2 ∧ At s2 a2 ∧ Same steer s1 s2)
    (h1 : a2.sn = a.sn) (h2 : a2.cp = a.cp + a.c) (hs : 1 ≤ a2.sts ∧ a2.sts ≤ 4)
    (hn : 0 ≤ a.sn ∧ a.sn ≤ 65534) (hq : -32768 ≤ p + d * a.sn ∧ p + d * a.sn ≤ 32767) :
    (-32768 ≤ p + d * (a.sn + 1) ∧ p + d * (a.sn + 1) ≤ 32767 →
      ∃ s', Ends Γ turn s (.ret ()) s' ∧ Live s' p d n { a2 with sn := a.sn + 1 }) ∧
    (¬ (-32768 ≤ p + d * (a.sn + 1) ∧ p + d * (a.sn + 1) ≤ 32767) → ∃ x s', Ends Γ turn s (.thrown x) s') := by
  obtain ⟨s1, l1, _, k⟩ := turn_begin h hc hp ho
  obtain ⟨s2, e2, a2', f2⟩ := hsw s1 l1
  have l2 : Live s2 p d n a2 := l1.same f2 a2' (by decide) h1
  have c3 := cmp_enum (s := s2.st) .ne (y := 0) l2.at_.sts (by omega) (by omega)
  rw [show rel .ne a2.sts 0 = true by simp [rel]; omega] at c3
  constructor
  · intro hq'
    obtain ⟨s3, e3, l3⟩ := advance_ends l2 hs (by omega) (by rw [h1]; exact hq) (by rw [h1]; exact hq') (by omega)
    refine ⟨s3, k _ _ (ends_seq e2 (ends_ite c3 e3)), ?_⟩
    rw [← h1]; exact l3
  · intro hq'
    obtain ⟨x, e3⟩ := advance_throws l2 (by rw [h1]; exact hq) (by rw [h1]; exact hq')
    exact ⟨x, _, k _ _ (ends_seq e2 (ends_ite c3 e3))⟩

theorem sw_up {s : LState 30} {p d n : Int} {a : A} (h : Live s p d n a) (hs : a.sts = 1) (ho : UpOk n a) :
    ∃ s2, Ends Γ switch s (.ret ()) s2 ∧ At s2 (upA n a) ∧ Same steer s s2 := by
  have c1 := cmp_enum (s := s.st) .eq (y := 1) h.at_.sts (by omega) (by omega)
  rw [show rel .eq a.sts 1 = true by simp [rel]; omega] at c1
  obtain ⟨s2, e2, a2, f2⟩ := caseUp_ends h.at_ h.mv h.mid ho
  exact ⟨s2, ends_ite c1 e2, a2, f2⟩

theorem sw_down {s : LState 30} {p d n : Int} {a : A} (h : Live s p d n a) (hs : a.sts = 3) (ho : DownOk n a) :
    ∃ s2, Ends Γ switch s (.ret ()) s2 ∧ At s2 (downA n a) ∧ Same steer s s2 := by
  have c1 := cmp_enum (s := s.st) .eq (y := 1) h.at_.sts (by omega) (by omega)
  rw [show rel .eq a.sts 1 = false by simp [rel]; omega] at c1
  have c2 := cmp_enum (s := s.st) .eq (y := 3) h.at_.sts (by omega) (by omega)
  rw [show rel .eq a.sts 3 = true by simp [rel]; omega] at c2
  obtain ⟨s2, e2, a2, f2⟩ := caseDown_ends h.at_ h.mv ho
  exact ⟨s2, ends_ite c1 (ends_ite c2 e2), a2, f2⟩

theorem sw_max {s : LState 30} {p d n : Int} {a : A} (h : Live s p d n a) (hs : a.sts = 2) (h1 : 0 ≤ a.sn ∧ a.sn ≤ 65535)
    (hd : 0 ≤ a.sd ∧ a.sd ≤ n) (hb : -32768 ≤ 5 - (n - a.sd) * 4) :
    ∃ s2, Ends Γ switch s (.ret ()) s2 ∧ At s2 (maxA n a) ∧ Same steer s s2 := by
  have c1 := cmp_enum (s := s.st) .eq (y := 1) h.at_.sts (by omega) (by omega)
  rw [show rel .eq a.sts 1 = false by simp [rel]; omega] at c1
  have c2 := cmp_enum (s := s.st) .eq (y := 3) h.at_.sts (by omega) (by omega)
  rw [show rel .eq a.sts 3 = false by simp [rel]; omega] at c2
  have c3 := cmp_enum (s := s.st) .eq (y := 2) h.at_.sts (by omega) (by omega)
  rw [show rel .eq a.sts 2 = true by simp [rel]; omega] at c3
  have := h.nr
  obtain ⟨s2, e2, a2, f2⟩ := caseMax_ends h.at_ h.mv hs h1 (by omega) hb
  exact ⟨s2, ends_ite c1 (ends_ite c2 (ends_ite c3 e2)), a2, f2⟩

/-- the last interrupt -/
theorem turn_last {s : LState 30} {p d n : Int} {a : A} (h : Live s p d n a) (hs : a.sts = 4) (hc : 0 ≤ a.c ∧ a.c ≤ 1000000000)
    (hp : 0 ≤ a.cp) (ho : a.cp + a.c ≤ 4294967295) :
    ∃ s', Ends Γ turn s (.ret ()) s' ∧ s'.st motor_pos = s.st motor_pos ∧ s'.st run_flg = 0 := by
  obtain ⟨s1, l1, hp1, k⟩ := turn_begin h hc hp ho
  have st1 := l1.at_.sts
  simp only at st1
  have c1 := cmp_enum (s := s1.st) .eq (y := 1) st1 (by omega) (by omega)
  rw [show rel .eq a.sts 1 = false by simp [rel]; omega] at c1
  have c2 := cmp_enum (s := s1.st) .eq (y := 3) st1 (by omega) (by omega)
  rw [show rel .eq a.sts 3 = false by simp [rel]; omega] at c2
  have c3 := cmp_enum (s := s1.st) .eq (y := 2) st1 (by omega) (by omega)
  rw [show rel .eq a.sts 2 = false by simp [rel]; omega] at c3
  let s2 := s1.write ramp_sts 0
  let s3 := s2.write CCP1IE 0
  let s4 := s3.write run_flg 0
  have e4 : Ends Γ caseLast s1 (.ret ()) s4 :=
    ends_seq (s1 := s2) (ends_assign rfl) (ends_seq (s1 := s3) (ends_assign rfl) (ends_assign rfl))
  have c4 := cmp_enum (s := s4.st) .ne (x := 0) (y := 0) rfl (by omega) (by omega)
  refine ⟨s4, k _ _ (ends_seq (ends_ite c1 (ends_ite c2 (ends_ite c3 e4))) (ends_ite c4 (ends_skip _))), hp1, rfl⟩

/-! ### the loop -/

abbrev loop : St := .while (.truth (.var run_flg)) turn

theorem busy {s : LState 30} (h : s.st run_flg = 1) : (LCond.truth (.var run_flg) : Co).eval Γ s.st = .ret true := by
  have key : (LCond.truth (.var run_flg) : Co).eval Γ (fun _ => 1) = .ret true := by decide +kernel
  rw [← key, ← h]; rfl

theorem idle {s : LState 30} (h : s.st run_flg = 0) : (LCond.truth (.var run_flg) : Co).eval Γ s.st = .ret false := by
  have key : (LCond.truth (.var run_flg) : Co).eval Γ (fun _ => 0) = .ret false := by decide +kernel
  rw [← key, ← h]; rfl

/-- the loop stops at `q` -/
def Stops (s : LState 30) (q : Int) : Prop := ∃ s', Ends Γ loop s (.ret ()) s' ∧ s'.st motor_pos = q ∧ s'.st run_flg = 0
/-- an exception ends the loop -/
def Throws (s : LState 30) : Prop := ∃ x s', Ends Γ loop s (.thrown x) s'
/-- an exception ends the loop at the position `q` -/
def ThrowsAt (s : LState 30) (q : Int) : Prop := ∃ x s', Ends Γ loop s (.thrown x) s' ∧ s'.st motor_pos = q
/-- whatever the loop does from `s1` it does from `s` -/
def Leads (s s1 : LState 30) : Prop := ∀ r s', Ends Γ loop s1 r s' → Ends Γ loop s r s'

theorem Leads.refl (s : LState 30) : Leads s s := fun _ _ h => h
theorem Leads.trans {s s1 s2 : LState 30} (h : Leads s s1) (h' : Leads s1 s2) : Leads s s2 := fun r s' e => h r s' (h' r s' e)
theorem Leads.stops {s s1 : LState 30} (h : Leads s s1) {q : Int} (h' : Stops s1 q) : Stops s q := by
  obtain ⟨s', e, k⟩ := h'; exact ⟨s', h _ _ e, k⟩
theorem Leads.throws {s s1 : LState 30} (h : Leads s s1) (h' : Throws s1) : Throws s := by
  obtain ⟨x, s', e⟩ := h'; exact ⟨x, s', h _ _ e⟩
theorem Leads.throwsAt {s s1 : LState 30} (h : Leads s s1) {q : Int} (h' : ThrowsAt s1 q) : ThrowsAt s q := by
  obtain ⟨x, s', e, k⟩ := h'; exact ⟨x, s', h _ _ e, k⟩
theorem leads_turn {s s1 : LState 30} {p d n : Int} {a : A} (h : Live s p d n a) (e : Ends Γ turn s (.ret ()) s1) : Leads s s1 :=
  fun _ _ e' => ends_while_true (busy h.run) e e'
theorem throws_turn {s s' : LState 30} {p d n : Int} {a : A} (h : Live s p d n a) {x : Err} (e : Ends Γ turn s (.thrown x) s') :
    Throws s := ⟨x, s', ends_while_throw (busy h.run) e⟩

/-- a position is in the range of its type -/
def Pos (x : Int) : Prop := -32768 ≤ x ∧ x ≤ 32767

theorem pos_between {p d n k : Int} (hd : d = 1 ∨ d = -1) (h0 : Pos p) (hn : Pos (p + d * n)) (hk : 0 ≤ k ∧ k ≤ n) : Pos (p + d * k) := by
  unfold Pos at *
  rcases hd with rfl | rfl <;> omega

/-- the last interrupt -/
theorem last_run {s : LState 30} {p d n : Int} {a : A} (h : Live s p d n a) (hs : a.sts = 4) (hc : 0 ≤ a.c ∧ a.c ≤ 1000000000)
    (hp : 0 ≤ a.cp ∧ a.cp ≤ 4294967295) :
    (a.cp + a.c ≤ 4294967295 → Stops s (p + d * a.sn)) ∧ (4294967295 < a.cp + a.c → Throws s) := by
  constructor
  · intro ho
    obtain ⟨s', e, h1, h2⟩ := turn_last h hs hc hp.1 ho
    exact ⟨s', ends_while_true (busy h.run) e (ends_while_false (idle h2)), h1.trans h.pos, h2⟩
  · intro ho
    obtain ⟨x, s', e, _⟩ := turn_overflow h hc hp ho
    exact throws_turn h e

/-! ### slowing down to the target -/

/-- what is added to the counter during the last `r` steps and the last interrupt -/
def dsum : Nat → Int → Int → Option Int
  | 0, _, _ => none
  | 1, c, _ => some (c + c)
  | r + 2, c, den =>
    if -32768 ≤ den ∧ den + 4 < 0 ∧ 640000 < nextC (den + 4) c ∧ nextC (den + 4) c ≤ 1000000000 then
      (dsum (r + 1) (nextC (den + 4) c) (den + 4)).map (c + ·)
    else none

theorem dsum_pos : ∀ (r : Nat) (c den D : Int), 0 ≤ c → dsum r c den = some D → 0 ≤ D
  | 0, _, _, _, _, h => by simp [dsum] at h
  | 1, c, _, D, hc, h => by simp only [dsum, Option.some.injEq] at h; omega
  | r + 2, c, den, D, hc, h => by
    simp only [dsum] at h
    split at h
    · next hg =>
      simp only [Option.map_eq_some_iff] at h
      obtain ⟨E, hE, rfl⟩ := h
      have := dsum_pos (r + 1) _ _ E (by omega) hE
      omega
    · cases h

theorem down_run (p d n : Int) (h0 : Pos p) (hn : Pos (p + d * n)) : ∀ (r : Nat) (s : LState 30) (a : A) (D : Int),
    Live s p d n a → a.sts = 3 → a.sn = n - r → (r : Int) ≤ n → 0 < a.c ∧ a.c ≤ 1000000000 → 0 ≤ a.cp ∧ a.cp ≤ 4294967295 →
    dsum r a.c a.den = some D →
    (a.cp + D ≤ 4294967295 → Stops s (p + d * n)) ∧ (4294967295 < a.cp + D → Throws s)
  | 0, s, a, D, h, hs, hr, hrn, hc, hp, hD => by simp [dsum] at hD
  | r + 1, s, a, D, h, hs, hr, hrn, hc, hp, hD => by
    have nr := h.nr
    by_cases ho : 4294967295 < a.cp + a.c
    · obtain ⟨x, s', e, _⟩ := turn_overflow h (by omega) hp ho
      refine ⟨fun hh => ?_, fun _ => throws_turn h e⟩
      exfalso
      rcases r with _ | r
      · simp only [dsum, Option.some.injEq] at hD; omega
      · simp only [dsum] at hD
        split at hD
        · next hg =>
          simp only [Option.map_eq_some_iff] at hD
          obtain ⟨E, hE, rfl⟩ := hD
          have := dsum_pos _ _ _ E (by omega) hE
          omega
        · cases hD
    have hpos : Pos (p + d * a.sn) := pos_between h.dd h0 hn (by omega)
    have hpos' : Pos (p + d * (a.sn + 1)) := pos_between h.dd h0 hn (by omega)
    have hok : DownOk n { a with cp := a.cp + a.c } := by
      refine ⟨by simp only; omega, by simp only; omega, ?_⟩
      rcases r with _ | r
      · left; simp only; omega
      · simp only [dsum] at hD
        split at hD
        · next hg => right; right; simp only; omega
        · cases hD
    have hsw : ∀ s1, Live s1 p d n { a with cp := a.cp + a.c } →
        ∃ s2, Ends Γ switch s1 (.ret ()) s2 ∧ At s2 (downA n { a with cp := a.cp + a.c }) ∧ Same steer s1 s2 :=
      fun s1 l1 => sw_down l1 hs hok
    rcases r with _ | r
    · have hl : a.sn = n - 1 := by omega
      have e : downA n { a with cp := a.cp + a.c } = { a with cp := a.cp + a.c, sts := 4 } := by
        unfold downA; rw [if_pos hl]
      rw [e] at hsw
      obtain ⟨s', e', l'⟩ := (turn_step h (by omega) hp.1 (by omega) hsw rfl rfl (by simp) (by omega) hpos).1 hpos'
      simp only [dsum, Option.some.injEq] at hD
      have k := last_run l' rfl (by simp only; omega) (by simp only; omega)
      simp only at k
      rw [show a.sn + 1 = n by omega] at k
      have hl' := leads_turn h e'
      exact ⟨fun hh => hl'.stops (k.1 (by omega)), fun hh => hl'.throws (k.2 (by omega))⟩
    · simp only [dsum] at hD
      split at hD
      · next hg =>
        simp only [Option.map_eq_some_iff] at hD
        obtain ⟨E, hE, rfl⟩ := hD
        have e : downA n { a with cp := a.cp + a.c } =
            { a with cp := a.cp + a.c, den := a.den + 4, c := nextC (a.den + 4) a.c } := by
          unfold downA; rw [if_neg (by simp only; omega), if_neg (by simp only; omega)]
        rw [e] at hsw
        obtain ⟨s', e', l'⟩ := (turn_step h (by omega) hp.1 (by omega) hsw rfl rfl (by simp only; omega) (by omega) hpos).1 hpos'
        have k := down_run p d n h0 hn (r + 1) s' _ E l' hs (by simp only; omega) (by omega) (by simp only; omega)
          (by simp only; omega) hE
        simp only at k
        have hl' := leads_turn h e'
        exact ⟨fun hh => hl'.stops (k.1 (by omega)), fun hh => hl'.throws (k.2 (by omega))⟩
      · cases hD

/-! ### full speed -/

theorem brake_sum : dsum 217 640000 (-867) = some 283781729 := by decide +kernel

theorem max_run (p d n : Int) (h0 : Pos p) (hn : Pos (p + d * n)) : ∀ (k : Nat) (s : LState 30) (a : A),
    Live s p d n a → a.sts = 2 → a.c = 640000 → 0 ≤ a.sn → a.sd = n - 218 → a.sn + k = a.sd → 0 ≤ a.cp ∧ a.cp ≤ 4294967295 →
    (a.cp + 640000 * (k + 1) + 283781729 ≤ 4294967295 → Stops s (p + d * n)) ∧
    (4294967295 < a.cp + 640000 * (k + 1) + 283781729 → Throws s) := by
  intro k
  induction k with
  | zero =>
    intro s a h hs hc hz hd hk hp
    have nr := h.nr
    by_cases ho : 4294967295 < a.cp + a.c
    · obtain ⟨x, s', e, _⟩ := turn_overflow h (by omega) hp ho
      exact ⟨fun hh => by omega, fun _ => throws_turn h e⟩
    have hpos : Pos (p + d * a.sn) := pos_between h.dd h0 hn (by omega)
    have hpos' : Pos (p + d * (a.sn + 1)) := pos_between h.dd h0 hn (by omega)
    have hsw : ∀ s1, Live s1 p d n { a with cp := a.cp + a.c } →
        ∃ s2, Ends Γ switch s1 (.ret ()) s2 ∧ At s2 (maxA n { a with cp := a.cp + a.c }) ∧ Same steer s1 s2 :=
      fun s1 l1 => sw_max l1 hs (by simp only; omega) (by simp only; omega) (by simp only; omega)
    have e : maxA n { a with cp := a.cp + a.c } = { a with cp := a.cp + a.c, sts := 3, den := -867 } := by
      unfold maxA; rw [if_pos (by simp only; omega)]
      simp only [A.mk.injEq, true_and, and_true]; omega
    rw [e] at hsw
    obtain ⟨s', e', l'⟩ := (turn_step h (by omega) hp.1 (by omega) hsw rfl rfl (by simp) (by omega) hpos).1 hpos'
    have q := down_run p d n h0 hn 217 s' _ 283781729 l' rfl (by simp only; omega) (by omega) (by simp only; omega)
      (by simp only; omega) (by simp only [hc]; exact brake_sum)
    simp only at q
    have hl' := leads_turn h e'
    exact ⟨fun hh => hl'.stops (q.1 (by omega)), fun hh => hl'.throws (q.2 (by omega))⟩
  | succ k ih =>
    intro s a h hs hc hz hd hk hp
    have nr := h.nr
    by_cases ho : 4294967295 < a.cp + a.c
    · obtain ⟨x, s', e, _⟩ := turn_overflow h (by omega) hp ho
      exact ⟨fun hh => by omega, fun _ => throws_turn h e⟩
    have hpos : Pos (p + d * a.sn) := pos_between h.dd h0 hn (by omega)
    have hpos' : Pos (p + d * (a.sn + 1)) := pos_between h.dd h0 hn (by omega)
    have hsw : ∀ s1, Live s1 p d n { a with cp := a.cp + a.c } →
        ∃ s2, Ends Γ switch s1 (.ret ()) s2 ∧ At s2 (maxA n { a with cp := a.cp + a.c }) ∧ Same steer s1 s2 :=
      fun s1 l1 => sw_max l1 hs (by simp only; omega) (by simp only; omega) (by simp only; omega)
    have e : maxA n { a with cp := a.cp + a.c } = { a with cp := a.cp + a.c } := by
      unfold maxA; rw [if_neg (by simp only; omega)]
    rw [e] at hsw
    obtain ⟨s', e', l'⟩ := (turn_step h (by omega) hp.1 (by omega) hsw rfl rfl (by simp only; omega) (by omega) hpos).1 hpos'
    have q := ih s' _ l' hs hc (by simp only; omega) hd (by simp only; omega) (by simp only; omega)
    simp only at q
    have hl' := leads_turn h e'
    exact ⟨fun hh => hl'.stops (q.1 (by push_cast at hh; omega)), fun hh => hl'.throws (q.2 (by push_cast at hh; omega))⟩

/-- beyond the point where it should slow down the motor does not stop -/
theorem runaway (p d n : Int) : ∀ (k : Nat) (s : LState 30) (a : A),
    Live s p d n a → a.sts = 2 → a.c = 640000 → 0 ≤ a.sd → a.sd ≤ n → -32768 ≤ 5 - (n - a.sd) * 4 → a.sd < a.sn →
    a.sn + k ≤ 65534 → 0 ≤ a.cp → a.cp + 640000 * k ≤ 4294967295 → 4294967295 < a.cp + 640000 * (k + 1) → Pos (p + d * a.sn) →
    Throws s ∧ (Pos (p + d * (a.sn + k)) → ThrowsAt s (p + d * (a.sn + k))) := by
  intro k
  induction k with
  | zero =>
    intro s a h hs hc h1 h2 h3 h4 h5 h6 h7 h8 h9
    obtain ⟨x, s', e, hq⟩ := turn_overflow h (by omega) (by omega) (by omega)
    refine ⟨throws_turn h e, fun _ => ⟨x, s', ends_while_throw (busy h.run) e, ?_⟩⟩
    rw [hq, h.pos]; simp
  | succ k ih =>
    intro s a h hs hc h1 h2 h3 h4 h5 h6 h7 h8 h9
    have nr := h.nr
    have hsw : ∀ s1, Live s1 p d n { a with cp := a.cp + a.c } →
        ∃ s2, Ends Γ switch s1 (.ret ()) s2 ∧ At s2 (maxA n { a with cp := a.cp + a.c }) ∧ Same steer s1 s2 :=
      fun s1 l1 => sw_max l1 hs (by simp only; omega) (by simp only; omega) (by simp only; omega)
    have e : maxA n { a with cp := a.cp + a.c } = { a with cp := a.cp + a.c } := by
      unfold maxA; rw [if_neg (by simp only; omega)]
    rw [e] at hsw
    have ts := turn_step h (by omega) h6 (by omega) hsw rfl rfl (by simp only; omega) (by omega) h9
    by_cases hpos' : Pos (p + d * (a.sn + 1))
    · obtain ⟨s', e', l'⟩ := ts.1 hpos'
      have q := ih s' _ l' hs hc h1 h2 h3 (by simp only; omega) (by simp only; push_cast at h5; omega) (by simp only; omega)
        (by simp only; push_cast at h7; omega) (by simp only; push_cast at h8; omega) hpos'
      simp only at q
      have hl' := leads_turn h e'
      refine ⟨hl'.throws q.1, fun hh => ?_⟩
      have ee : a.sn + ((k + 1 : Nat) : Int) = a.sn + 1 + k := by push_cast; ring
      rw [ee] at hh ⊢
      exact hl'.throwsAt (q.2 hh)
    · obtain ⟨x, s', e'⟩ := ts.2 hpos'
      refine ⟨throws_turn h e', fun hh => absurd (?_ : Pos _) hpos'⟩
      have hd := h.dd
      unfold Pos at *
      push_cast at hh
      rcases hd with rfl | rfl <;> omega

/-! ### from the midpoint of a short move: the motor goes on accelerating -/

/-- the step over the natural numbers -/
def natC (d c : Nat) : Nat := c - 2 * c / d

theorem natC_cast {d c : Nat} (hd : 2 ≤ d) : nextC d c = natC d c := by
  unfold nextC natC
  rw [if_pos (by omega)]
  have h : 2 * c / d ≤ c := Nat.div_le_of_le_mul (by nlinarith)
  rw [Nat.cast_sub h]
  push_cast
  rfl

theorem natC_le (d c : Nat) : natC d c ≤ c := Nat.sub_le _ _

/-- The ramp with a positive denominator `d`, for up to `r` more steps before the last one. The result is `(0, x, y)` when the
last step is reached, with the counter `x` and the delay `y`, and `(k, x, _)` when full speed is reached `k` steps before the
last one. -/
def dn : Nat → Nat → Nat → Nat → Nat × Nat × Nat
  | 0, c, _, cp => (0, cp + c, c)
  | r + 1, c, d, cp =>
    let c' := natC (d + 4) c
    if c' ≤ 640000 then (r + 1, cp + c, 0) else dn r c' (d + 4) (cp + c)

theorem dn_run (p d n : Int) (h0 : Pos p) (hn : Pos (p + d * n)) : ∀ (r : Nat) (s : LState 30) (a : A) (cN dN cpN : Nat),
    Live s p d n a → 1 ≤ a.sts ∧ a.sts ≤ 4 → a.c = cN → a.cp = cpN → a.sn = n - 1 - r → (r : Int) + 1 ≤ n →
    0 < cN → cN ≤ 1000000000 → cpN + cN * (r + 2) ≤ 4294967295 → dN + 4 * r ≤ 32763 →
    (∀ s1, Live s1 p d n { a with cp := a.cp + a.c } → ∃ s2, Ends Γ switch s1 (.ret ()) s2 ∧
      At s2 (downA n { a with cp := a.cp + a.c, sts := 3, den := dN }) ∧ Same steer s1 s2) →
    ((dn r cN dN cpN).1 = 0 → Stops s (p + d * n)) ∧
    (∀ k, (dn r cN dN cpN).1 = k + 1 → ∃ s' a', Leads s s' ∧ Live s' p d n a' ∧ a'.sts = 2 ∧ a'.c = 640000 ∧
      a'.sn = n - (k + 1) ∧ a'.sd = k + 2 ∧ a'.cp = (dn r cN dN cpN).2.1)
  | 0, s, a, cN, dN, cpN, h, hs, hc, hcp, hsn, hr, c0, c1, ho, hd, hsw => by
    have nr := h.nr
    have hpos : Pos (p + d * a.sn) := pos_between h.dd h0 hn (by omega)
    have hpos' : Pos (p + d * (a.sn + 1)) := pos_between h.dd h0 hn (by omega)
    have e : downA n { a with cp := a.cp + a.c, sts := 3, den := dN } = { a with cp := a.cp + a.c, sts := 4, den := dN } := by
      unfold downA; rw [if_pos (by simp only; omega)]
    rw [e] at hsw
    obtain ⟨s', e', l'⟩ := (turn_step h (by omega) (by omega) (by omega) hsw rfl rfl (by simp) (by omega) hpos).1 hpos'
    have k := last_run l' rfl (by simp only; omega) (by simp only; omega)
    simp only at k
    rw [show a.sn + 1 = n by omega] at k
    exact ⟨fun _ => (leads_turn h e').stops (k.1 (by omega)), fun k hk => by simp [dn] at hk⟩
  | r + 1, s, a, cN, dN, cpN, h, hs, hc, hcp, hsn, hr, c0, c1, ho, hd, hsw => by
    have nr := h.nr
    have hpos : Pos (p + d * a.sn) := pos_between h.dd h0 hn (by omega)
    have hpos' : Pos (p + d * (a.sn + 1)) := pos_between h.dd h0 hn (by omega)
    have hx : nextC ((dN : Int) + 4) a.c = natC (dN + 4) cN := by
      have := natC_cast (d := dN + 4) (c := cN) (by omega)
      push_cast at this
      rw [hc]; exact this
    have ho' : a.cp + a.c ≤ 4294967295 := by
      have : cN * (r + 1 + 2) = cN * (r + 2) + cN := by ring
      rw [this] at ho; omega
    by_cases hm : natC (dN + 4) cN ≤ 640000
    · have e : downA n { a with cp := a.cp + a.c, sts := 3, den := dN } =
          { a with cp := a.cp + a.c, sts := 2, den := dN + 4, c := 640000, sd := n - a.sn } := by
        unfold downA; rw [if_neg (by simp only; omega), if_pos (by simp only; omega)]
      rw [e] at hsw
      obtain ⟨s', e', l'⟩ := (turn_step h (by omega) (by omega) ho' hsw rfl rfl (by simp) (by omega) hpos).1 hpos'
      have ed : dn (r + 1) cN dN cpN = (r + 1, cpN + cN, 0) := by simp only [dn]; rw [if_pos hm]
      rw [ed]
      refine ⟨fun hh => by simp at hh, fun k hk => ⟨s', _, leads_turn h e', l', rfl, rfl, ?_, ?_, ?_⟩⟩
      · simp only at hk ⊢; omega
      · simp only at hk ⊢; omega
      · simp only; omega
    · have e : downA n { a with cp := a.cp + a.c, sts := 3, den := dN } =
          { a with cp := a.cp + a.c, sts := 3, den := dN + 4, c := natC (dN + 4) cN } := by
        unfold downA; rw [if_neg (by simp only; omega), if_neg (by simp only; omega)]
        simp only [hx]
      rw [e] at hsw
      obtain ⟨s', e', l'⟩ := (turn_step h (by omega) (by omega) ho' hsw rfl rfl (by simp) (by omega) hpos).1 hpos'
      have ed : dn (r + 1) cN dN cpN = dn r (natC (dN + 4) cN) (dN + 4) (cpN + cN) := by simp only [dn]; rw [if_neg hm]
      rw [ed]
      have hle := natC_le (dN + 4) cN
      have hmul : natC (dN + 4) cN * (r + 2) ≤ cN * (r + 2) := Nat.mul_le_mul_right _ hle
      have k := dn_run p d n h0 hn r s' _ (natC (dN + 4) cN) (dN + 4) (cpN + cN) l' (by simp) rfl (by simp only; push_cast; omega)
        (by simp only; push_cast at hsn; omega) (by push_cast at hr; omega) (by omega) (by omega)
        (by have : cN * (r + 1 + 2) = cN * (r + 2) + cN := by ring
            rw [this] at ho; omega) (by omega)
        (fun s1 l1 => sw_down l1 rfl ⟨by simp only; push_cast at hsn hr; omega, by simp only; omega, by
          right; left; simp only; push_cast at hd; omega⟩)
      have hl' := leads_turn h e'
      refine ⟨fun hh => hl'.stops (k.1 hh), fun j hj => ?_⟩
      obtain ⟨s2, a2, q1, q2⟩ := k.2 j hj
      exact ⟨s2, a2, hl'.trans q1, q2⟩

/-! ### speeding up -/

/-- the delay and the counter after `k` steps of the first ramp -/
def upc : Nat → Nat × Nat
  | 0 => (12800000, 1000)
  | k + 1 => (natC (4 * k + 5) (upc k).1, (upc k).2 + (upc k).1)

/-- what happens to a move of `n` steps, from the result of the ramp that starts at the midpoint -/
def verdict (n : Nat) (x : Nat × Nat × Nat) : Bool :=
  if n ≤ 220 ∨ n = 222 then decide (x.1 = 0)
  else if n = 437 then decide (x.1 = 218 ∧ x.2.1 = 273828620)
  else decide (x.1 ≠ 0 ∧ 2 * x.1 + 1 < n ∧ x.2.1 ≤ 4294967295 ∧ (n - x.1 + (4294967295 - x.2.1) / 640000 = 6501 ∨
    n - x.1 + (4294967295 - x.2.1) / 640000 = 6502))

/-- the facts about the first ramp and all short moves that are established by evaluation: `x` after `k` steps, for the moves of
`2 k + 1` and `2 k + 2` steps -/
def chk (k : Nat) (x : Nat × Nat) : Bool :=
  decide (640000 < x.1 ∧ x.1 ≤ 12800000 ∧ x.2 + x.1 + x.1 * (k + 2) ≤ 4294967295) &&
  decide (natC (4 * k + 5) x.1 ≤ 640000 ↔ k = 218) &&
  verdict (2 * k + 1) (dn k x.1 (4 * k + 3) x.2) &&
  verdict (2 * k + 2) (dn k x.1 (4 * k + 11) (x.2 + x.1))

def chkAll : Nat → Nat → Nat × Nat → Bool
  | 0, _, _ => true
  | f + 1, k, x => chk k x && chkAll f (k + 1) (natC (4 * k + 5) x.1, x.2 + x.1)

theorem chkAll_spec : ∀ (f k : Nat), chkAll f k (upc k) = true → ∀ j, j < f → chk (k + j) (upc (k + j)) = true
  | 0, _, _, _, hj => by omega
  | f + 1, k, h, j, hj => by
    simp only [chkAll, Bool.and_eq_true] at h
    rcases j with _ | j
    · exact h.1
    · have := chkAll_spec f (k + 1) h.2 j (by omega)
      rw [show k + (j + 1) = k + 1 + j by omega]
      exact this

set_option maxRecDepth 10000 in
theorem all_ok : ∀ j, j < 219 → chk j (upc j) = true := by
  have h : chkAll 219 0 (upc 0) = true := by decide +kernel
  intro j hj
  have := chkAll_spec 219 0 h j hj
  rwa [Nat.zero_add] at this

theorem upc_end : upc 218 = (640575, 273188045) := by decide +kernel

theorem upc_range {k : Nat} (hk : k < 219) :
    640000 < (upc k).1 ∧ (upc k).1 ≤ 12800000 ∧ (upc k).2 + (upc k).1 + (upc k).1 * (k + 2) ≤ 4294967295 := by
  have := all_ok k hk
  simp only [chk, Bool.and_eq_true, decide_eq_true_eq] at this
  exact this.1.1.1

theorem upc_next {k : Nat} (hk : k < 219) : natC (4 * k + 5) (upc k).1 ≤ 640000 ↔ k = 218 := by
  have := all_ok k hk
  simp only [chk, Bool.and_eq_true, decide_eq_true_eq] at this
  exact this.1.1.2

/-- the state after `k` steps of the first ramp -/
def upAt (k : Nat) : A := ⟨1, k, (upc k).1, 4 * k + 1, (upc k).2, 0⟩

theorem up_ok {n : Int} {k : Nat} (hk : k < 219) (hm : (k : Int) < (n - 1) / 2) (hn : n ≤ 32767) {x : Int} :
    UpOk n { upAt k with cp := x } := by
  obtain ⟨h1, h2, h3⟩ := upc_range hk
  refine ⟨by omega, ?_⟩
  rw [if_neg (by simp only [upAt]; omega)]
  exact ⟨by simp only [upAt]; omega, by simp only [upAt]; omega, by simp only [upAt]; omega⟩

theorem up_next {n : Int} {k : Nat} (hk : k < 219) (hm : (k : Int) < (n - 1) / 2) (x : Int) :
    upA n { upAt k with cp := x } =
      if k = 218 then ⟨2, k, 640000, 4 * k + 5, x, n - k⟩ else ⟨1, k, (upc (k + 1)).1, 4 * k + 5, x, 0⟩ := by
  have hx : nextC (4 * (k : Int) + 1 + 4) ((upc k).1 : Int) = natC (4 * k + 5) (upc k).1 := by
    have := natC_cast (d := 4 * k + 5) (c := (upc k).1) (by omega)
    push_cast at this
    rw [← this]; congr 1
  have hi := upc_next hk
  unfold upA downA
  rw [if_neg (by simp only [upAt]; omega), if_neg (by simp only [upAt]; omega)]
  simp only [upAt, hx]
  by_cases h8 : k = 218
  · rw [if_pos (by have := hi.2 h8; omega), if_pos h8]
    simp only [A.mk.injEq, true_and, and_true]; omega
  · rw [if_neg (fun hh => h8 (hi.1 (by omega))), if_neg h8]
    simp only [upc, A.mk.injEq, true_and, and_true]; omega

theorem up_run (p d n : Int) (h0 : Pos p) (hn : Pos (p + d * n)) {s : LState 30} (h : Live s p d n (upAt 0)) :
    ∀ k : Nat, k < 219 → (k : Int) ≤ (n - 1) / 2 → ∃ s', Leads s s' ∧ Live s' p d n (upAt k)
  | 0, _, _ => ⟨s, Leads.refl s, h⟩
  | k + 1, hk, hm => by
    obtain ⟨s1, l1, h1⟩ := up_run p d n h0 hn h k (by omega) (by push_cast at hm; omega)
    have nr := h.nr
    have hm' : (k : Int) < (n - 1) / 2 := by push_cast at hm; omega
    obtain ⟨r1, r2, r3⟩ := upc_range (k := k) (by omega)
    have r4 : (upc k).2 + (upc k).1 ≤ 4294967295 := by omega
    have hpos : Pos (p + d * k) := pos_between h.dd h0 hn (by omega)
    have hpos' : Pos (p + d * (k + 1)) := pos_between h.dd h0 hn (by omega)
    have hsw : ∀ s2, Live s2 p d n { upAt k with cp := (upAt k).cp + (upAt k).c } →
        ∃ s3, Ends Γ switch s2 (.ret ()) s3 ∧ At s3 (upA n { upAt k with cp := (upAt k).cp + (upAt k).c }) ∧ Same steer s2 s3 :=
      fun s2 l2 => sw_up l2 rfl (up_ok (by omega) hm' nr.2)
    rw [up_next (by omega) hm', if_neg (by omega)] at hsw
    obtain ⟨s', e', l'⟩ := (turn_step h1 (by simp only [upAt]; omega) (by simp only [upAt]; omega) (by simp only [upAt]; omega) hsw rfl
      rfl (by simp) (by simp only [upAt]; omega) hpos).1 hpos'
    refine ⟨s', l1.trans (leads_turn h1 e'), ?_⟩
    have ee : upAt (k + 1) = ⟨1, (upAt k).sn + 1, (upc (k + 1)).1, 4 * k + 5, (upAt k).cp + (upAt k).c, 0⟩ := by
      simp only [upAt, upc, A.mk.injEq, true_and, and_true]
      refine ⟨?_, ?_⟩
      · push_cast; rfl
      · push_cast; omega
    rw [ee]
    exact l'

/-- a long move reaches full speed -/
theorem full_speed (p d n : Int) (h0 : Pos p) (hn : Pos (p + d * n)) {s : LState 30} (h : Live s p d n (upAt 0)) (hl : 439 ≤ n) :
    ∃ s', Leads s s' ∧ Live s' p d n ⟨2, 219, 640000, 877, 273828620, n - 218⟩ := by
  obtain ⟨s1, l1, h1⟩ := up_run p d n h0 hn h 218 (by omega) (by omega)
  have nr := h.nr
  have hpos : Pos (p + d * (218 : Nat)) := pos_between h.dd h0 hn (by omega)
  have hpos' : Pos (p + d * ((218 : Nat) + 1)) := pos_between h.dd h0 hn (by omega)
  have hsw : ∀ s2, Live s2 p d n { upAt 218 with cp := (upAt 218).cp + (upAt 218).c } →
      ∃ s3, Ends Γ switch s2 (.ret ()) s3 ∧ At s3 (upA n { upAt 218 with cp := (upAt 218).cp + (upAt 218).c }) ∧ Same steer s2 s3 :=
    fun s2 l2 => sw_up l2 rfl (up_ok (by omega) (by omega) nr.2)
  rw [up_next (by omega) (by omega), if_pos rfl] at hsw
  obtain ⟨s', e', l'⟩ := (turn_step h1 (by simp only [upAt, upc_end]; omega) (by simp only [upAt, upc_end]; omega)
    (by simp only [upAt, upc_end]; omega) hsw rfl rfl (by simp) (by simp only [upAt]; omega) hpos).1 hpos'
  exact ⟨s', l1.trans (leads_turn h1 e'), by
    simp only [upAt, upc_end] at l'
    exact l'⟩

/-- what a short move leads to, from the result of the ramp from the midpoint -/
def Led (s : LState 30) (p d n : Int) (x : Nat × Nat × Nat) : Prop :=
  (x.1 = 0 → Stops s (p + d * n)) ∧
  ∀ k, x.1 = k + 1 → ∃ s' a', Leads s s' ∧ Live s' p d n a' ∧ a'.sts = 2 ∧ a'.c = 640000 ∧
    a'.sn = n - (k + 1) ∧ a'.sd = k + 2 ∧ a'.cp = x.2.1

theorem short_run (p d : Int) (k : Nat) (hk : k < 219) {n : Nat} (h0 : Pos p) (hn : Pos (p + d * n)) {s : LState 30}
    (h : Live s p d n (upAt 0)) (hnk : n = 2 * k + 1 ∨ n = 2 * k + 2) :
    ∃ x, verdict n x = true ∧ Led s p d n x := by
  have nr := h.nr
  obtain ⟨s1, l1, h1⟩ := up_run p d n h0 hn h k hk (by omega)
  obtain ⟨r1, r2, r3⟩ := upc_range hk
  have ok := all_ok k hk
  simp only [chk, Bool.and_eq_true, decide_eq_true_eq] at ok
  rcases hnk with hnk | hnk
  · refine ⟨_, by rw [hnk]; exact ok.1.2, ?_⟩
    have hmid : (k : Int) = ((n : Int) - 1) / 2 := by omega
    have q := dn_run p d n h0 hn k s1 (upAt k) (upc k).1 (4 * k + 3) (upc k).2 h1 (by simp [upAt]) rfl rfl (by simp only [upAt]; omega)
      (by omega) (by omega) (by omega) (by omega) (by omega) (fun s2 l2 => ?_)
    · refine ⟨fun hx => l1.stops (q.1 hx), fun j hj => ?_⟩
      obtain ⟨s', a', b1, b2⟩ := q.2 j hj
      exact ⟨s', a', l1.trans b1, b2⟩
    · have hok : DownOk n { upAt k with cp := (upAt k).cp + (upAt k).c, sts := 3, den := ((n : Int) - k) * 4 - 1 } :=
        ⟨by simp only [upAt]; omega, by simp only [upAt]; omega, by simp only [upAt]; omega⟩
      have := sw_up l2 rfl ⟨by omega, by
        rw [if_pos (by simp only [upAt]; omega)]
        exact ⟨by simp only [upAt]; omega, hok⟩⟩
      have e : upA n { upAt k with cp := (upAt k).cp + (upAt k).c } =
          downA n { upAt k with cp := (upAt k).cp + (upAt k).c, sts := 3, den := ((4 * k + 3 : Nat) : Int) } := by
        unfold upA
        rw [if_pos (by simp only [upAt]; omega), if_neg (by omega)]
        congr 1
        simp only [upAt, A.mk.injEq, true_and, and_true]
        push_cast
        omega
      rw [e] at this
      exact this
  · refine ⟨_, by rw [hnk]; exact ok.2, ?_⟩
    have hpos : Pos (p + d * k) := pos_between h.dd h0 hn (by omega)
    have hpos' : Pos (p + d * (k + 1)) := pos_between h.dd h0 hn (by omega)
    have hsw : ∀ s2, Live s2 p d n { upAt k with cp := (upAt k).cp + (upAt k).c } →
        ∃ s3, Ends Γ switch s2 (.ret ()) s3 ∧
          At s3 { upAt k with cp := (upAt k).cp + (upAt k).c, sts := 3, den := ((4 * k + 11 : Nat) : Int) } ∧ Same steer s2 s3 := by
      intro s2 l2
      have := sw_up l2 rfl ⟨by omega, by
        rw [if_pos (by simp only [upAt]; omega)]
        exact ⟨by simp only [upAt]; omega, by simp only [upAt]; omega, by simp only [upAt]; omega, by simp only [upAt]; omega⟩⟩
      have e : upA n { upAt k with cp := (upAt k).cp + (upAt k).c } =
          { upAt k with cp := (upAt k).cp + (upAt k).c, sts := 3, den := ((4 * k + 11 : Nat) : Int) } := by
        unfold upA
        rw [if_pos (by simp only [upAt]; omega), if_pos (by omega)]
        simp only [upAt, A.mk.injEq, true_and, and_true]
        push_cast
        omega
      rw [e] at this
      exact this
    obtain ⟨s', e', l'⟩ := (turn_step h1 (by simp only [upAt]; omega) (by simp only [upAt]; omega) (by simp only [upAt]; omega) hsw rfl
      rfl (by simp) (by simp only [upAt]; omega) hpos).1 hpos'
    have q := dn_run p d n h0 hn k s' _ (upc k).1 (4 * k + 11) ((upc k).2 + (upc k).1) l' (by simp) rfl (by simp only [upAt]; push_cast; rfl)
      (by simp only [upAt]; omega) (by omega) (by omega) (by omega) (by omega) (by omega) (fun s2 l2 => ?_)
    · have hl := l1.trans (leads_turn h1 e')
      refine ⟨fun hx => hl.stops (q.1 hx), fun j hj => ?_⟩
      obtain ⟨s', a', b1, b2⟩ := q.2 j hj
      exact ⟨s', a', hl.trans b1, b2⟩
    · exact sw_down l2 rfl ⟨by simp only [upAt]; omega, by simp only [upAt]; omega, by simp only [upAt]; omega⟩

/-- the distances at which the motor runs past its target -/
def Runaway (n : Int) : Prop := n = 221 ∨ (223 ≤ n ∧ n ≤ 436) ∨ n = 438

theorem course (p d : Int) {n : Nat} (h0 : Pos p) (hn : Pos (p + d * n)) {s : LState 30} (h : Live s p d n (upAt 0)) :
    (Reaches n → Stops s (p + d * n)) ∧ (¬ Reaches n → Throws s) ∧
    (Runaway n → Pos (p + d * 6502) → ThrowsAt s (p + d * 6501) ∨ ThrowsAt s (p + d * 6502)) := by
  have nr := h.nr
  by_cases hl : 439 ≤ n
  · obtain ⟨s1, l1, h1⟩ := full_speed p d n h0 hn h (by omega)
    have q := max_run p d n h0 hn (n - 437) s1 _ h1 rfl rfl (by simp) rfl (by simp only; omega) (by simp)
    simp only at q
    refine ⟨fun hr => l1.stops (q.1 ?_), fun hr => l1.throws (q.2 ?_), fun hr => ?_⟩
    · unfold Reaches at hr; omega
    · unfold Reaches at hr; omega
    · unfold Runaway at hr; omega
  · obtain ⟨x, hv, hled⟩ := short_run p d ((n - 1) / 2) (by omega) h0 hn h (by omega)
    unfold verdict at hv
    by_cases hA : n ≤ 220 ∨ n = 222
    · rw [if_pos hA] at hv
      refine ⟨fun _ => hled.1 (by simpa using hv), fun hr => ?_, fun hr => ?_⟩
      · unfold Reaches at hr; omega
      · unfold Runaway at hr; omega
    rw [if_neg hA] at hv
    by_cases hB : n = 437
    · rw [if_pos hB] at hv
      simp only [decide_eq_true_eq] at hv
      obtain ⟨s', a', l', h', b1, b2, b3, b4, b5⟩ := hled.2 217 hv.1
      have q := max_run p d n h0 hn 0 s' a' h' b1 b2 (by omega) (by omega) (by omega) (by omega)
      refine ⟨fun _ => l'.stops (q.1 (by omega)), fun hr => ?_, fun hr => ?_⟩
      · unfold Reaches at hr; omega
      · unfold Runaway at hr; omega
    · rw [if_neg hB] at hv
      simp only [decide_eq_true_eq] at hv
      obtain ⟨v1, v2, v3, v4⟩ := hv
      obtain ⟨s', a', l', h', b1, b2, b3, b4, b5⟩ := hled.2 (x.1 - 1) (by omega)
      have q := runaway p d n ((4294967295 - x.2.1) / 640000) s' a' h' b1 b2 (by omega) (by omega) (by omega) (by omega) (by omega) (by omega)
        (by omega) (by omega) (pos_between h.dd h0 hn (by omega))
      refine ⟨fun hr => ?_, fun _ => l'.throws q.1, fun _ hp => ?_⟩
      · unfold Reaches at hr; omega
      · rcases v4 with v4 | v4
        · left
          have e : a'.sn + (((4294967295 - x.2.1) / 640000 : Nat) : Int) = 6501 := by omega
          rw [e] at q
          exact l'.throwsAt (q.2 (pos_between h.dd h0 hp (by omega)))
        · right
          have e : a'.sn + (((4294967295 - x.2.1) / 640000 : Nat) : Int) = 6502 := by omega
          rw [e] at q
          exact l'.throwsAt (q.2 hp)

/-! ### the start of a move -/

theorem shr1 {w : Int} (h : 0 ≤ w ∧ w ≤ 2147483647) :
    pBinVal .shr (ex s32 (-2147483647) 2147483647) (PTy.builtin s32 : PTy names) w 1 = .ret (w / 2) := by
  have e : pBinVal .shr (ex s32 (-2147483647) 2147483647) (PTy.builtin s32 : PTy names) w 1 =
    (castingHelper defaultException s32 (Opd.range s32 (-2147483647) 2147483647) (Opd.ofBuiltin s32) w 1 >>= fun r =>
      rightShift s32 (dispatchAndReturn defaultException) r.1 r.2 >>= fun rx =>
      if rx.exception then (do
        let v ← opShr.ignored s32 s32 r.1 r.2
        .ret (conv s32 v))
      else rx.value) := rfl
  rw [e, castingHelper_throw (T := Opd.range s32 (-2147483647) 2147483647) (U := Opd.ofBuiltin s32) rfl (by decide +kernel)
    (show -2147483647 ≤ w ∧ w ≤ 2147483647 by omega) (by decide +kernel) (by decide +kernel) (by decide +kernel)
    (by decide +kernel), castTo_of_in (in_s32 (by omega)), castTo_of_in (in_s32 (by omega))]
  simp only [orThrow, ret_bind]
  rw [rightShift_eq (by decide) (in_s32 (by omega)) (in_s32 (by omega)), if_neg (by decide), if_neg (by decide), if_neg (by omega),
    if_neg (by decide)]
  rfl

/-- motor2.c:141 `midpt = (move - 1) >> 1` -/
theorem midpt_ends {s : LState 30} {n : Int} (hn : s.st move = n) (nr : 1 ≤ n ∧ n ≤ 65535) :
    Ends Γ (.assign midpt (.bin .shr (sub (.var move) (int 1)) (int 1))) s (.ret ()) (s.write midpt ((n - 1) / 2)) := by
  have e1 : Ev Γ s.st (sub (.var move) (int 1)) (ex s32 (-2147483647) 2147483647) (n - 1) :=
    ev_bin careful (ev_u16 move rfl hn (by omega)) (ev_int 1 (by decide)) (q := ()) (e := ()) (R := s32) (x := 5) (y := 1)
      (by decide +kernel) rfl (in_s32 (by omega)) (in_s32 (by omega)) (in_s32 (by omega))
  have e2 : Ev Γ s.st (.bin .shr (sub (.var move) (int 1)) (int 1)) (ex s32 (-2147483648) 2147483647) ((n - 1) / 2) :=
    ev_bin' e1 (ev_int 1 (by decide)) (by decide +kernel) (shr1 (by omega)) (by decide +kernel)
      (show -2147483648 ≤ _ ∧ _ ≤ 2147483647 by omega)
  exact assign_of careful good e2 (S := safeT u16) rfl (x := 0) (by decide +kernel) (show 0 ≤ _ ∧ _ ≤ 65535 by omega)

/-- motor2.c:148 `T1CON &= -2` and motor2.c:156 `T1CON |= 1` on a byte -/
theorem t1_off {s : LState 30} (h : 0 ≤ s.st T1CON ∧ s.st T1CON ≤ 255) :
    Ends Γ (.opAssign (.bit .band) T1CON (int (-2))) s (.ret ()) (s.write T1CON (s.st T1CON - s.st T1CON % 2)) := by
  refine ends_opAssign ?_
  have key : ∀ a : Fin 256, opAssignVal Γ (fun _ => (a : Int)) (.bit .band) T1CON (int (-2)) = .ret ((a : Int) - a % 2) := by decide +kernel
  have := key ⟨(s.st T1CON).toNat, by omega⟩
  rw [show (((⟨(s.st T1CON).toNat, by omega⟩ : Fin 256) : Nat) : Int) = s.st T1CON by simp; omega] at this
  exact this

theorem t1_on {s : LState 30} (h : 0 ≤ s.st T1CON ∧ s.st T1CON ≤ 255) :
    Ends Γ (.opAssign (.bit .bor) T1CON (int 1)) s (.ret ()) (s.write T1CON (s.st T1CON - s.st T1CON % 2 + 1)) := by
  refine ends_opAssign ?_
  have key : ∀ a : Fin 256, opAssignVal Γ (fun _ => (a : Int)) (.bit .bor) T1CON (int 1) = .ret ((a : Int) - a % 2 + 1) := by decide +kernel
  have := key ⟨(s.st T1CON).toNat, by omega⟩
  rw [show (((⟨(s.st T1CON).toNat, by omega⟩ : Fin 256) : Nat) : Int) = s.st T1CON by simp; omega] at this
  exact this

/-- the timer registers are zero, so `make16` is zero whichever way its expression is read -/
theorem make16_ends {s : LState 30} (h1 : s.st TMR1H = 0) (h2 : s.st TMR1L = 0) : Ends Γ make16 s (.ret ()) (s.write r16 0) := by
  refine ends_assign ?_
  have e : assignVal Γ s.st r16 (.bin .shl (.cast (safeT ⟨false, 1⟩) (.var TMR1H)) (add (int 8) (.var TMR1L))) =
    assignVal Γ (fun j => if j = TMR1H then s.st TMR1H else s.st TMR1L) r16
      (.bin .shl (.cast (safeT ⟨false, 1⟩) (.var TMR1H)) (add (int 8) (.var TMR1L))) := rfl
  rw [e, h1, h2]
  decide +kernel

theorem assign_int {s : LState 30} (i : Fin 30) (k : Int) (h : assignVal Γ (fun _ => 0) i (int k) = .ret k) :
    Ends Γ (.assign i (int k)) s (.ret ()) (s.write i k) := ends_assign h

/-- the state in which a move can be started -/
structure Armed (s : LState 30) (p d n : Int) : Prop where
  mv : s.st move = n
  inc : s.st pos_inc = d
  dd : d = 1 ∨ d = -1
  pinc : s.st phase_inc = 1 ∨ s.st phase_inc = 255
  ph : 0 ≤ s.st phase_ix ∧ s.st phase_ix ≤ 255
  t1 : 0 ≤ s.st T1CON ∧ s.st T1CON ≤ 255
  pos : s.st motor_pos = p
  high : s.st TMR1H = 0
  low : s.st TMR1L = 0
  nr : 1 ≤ n ∧ n ≤ 32767

theorem start_ends {s : LState 30} {p d n : Int} (h : Armed s p d n) : ∃ s', Ends Γ start s (.ret ()) s' ∧ Live s' p d n (upAt 0) := by
  have nr := h.nr
  let s1 := s.write midpt ((n - 1) / 2)
  let s2 := s1.write c 12800000
  let s3 := s2.write step_no 0
  let s4 := s3.write denom 1
  let s5 := s4.write ramp_sts 1
  let s6 := s5.write run_flg 1
  let s7 := s6.write T1CON (s.st T1CON - s.st T1CON % 2)
  let s8 := s7.write r16 0
  let s9 := s8.write ccpr 0
  let s10 := s9.write ccpr 1000
  have e1 : Ends Γ _ s (.ret ()) s1 := midpt_ends h.mv (by omega)
  have e2 : Ends Γ (.assign c C0) s1 (.ret ()) s2 := assign_int _ _ (by decide +kernel)
  have e3 : Ends Γ (.assign step_no (int 0)) s2 (.ret ()) s3 := assign_int _ _ (by decide +kernel)
  have e4 : Ends Γ (.assign denom (int 1)) s3 (.ret ()) s4 := assign_int _ _ (by decide +kernel)
  have e5 : Ends Γ (.assign ramp_sts ramp_up) s4 (.ret ()) s5 := ends_assign (by rfl)
  have e6 : Ends Γ (.assign run_flg (.const ⟨false, 0⟩ 1)) s5 (.ret ()) s6 := ends_assign (by rfl)
  have e7 : Ends Γ (.opAssign (.bit .band) T1CON (int (-2))) s6 (.ret ()) s7 := t1_off (s := s6) h.t1
  have e8 : Ends Γ make16 s7 (.ret ()) s8 := make16_ends (s := s7) h.high h.low
  have e9 : Ends Γ (.assign ccpr (.var r16)) s8 (.ret ()) s9 := by
    refine ends_assign ?_
    show assignVal Γ (fun _ => 0) ccpr (.var r16) = .ret 0
    decide +kernel
  have e10 : Ends Γ (.opAssign (.ar .add) ccpr (int 1000)) s9 (.ret ()) s10 := by
    refine ends_opAssign ?_
    show opAssignVal Γ (fun _ => 0) (.ar .add) ccpr (int 1000) = .ret 1000
    decide +kernel
  obtain ⟨s11, e11, f11⟩ := timer_ends (s := s10) (w := 1000) rfl (by decide)
  have ph11 : s11.st phase_ix = s.st phase_ix := f11.st (by decide)
  have pi11 : s11.st phase_inc = s.st phase_inc := f11.st (by decide)
  have e12 := stepPhase_ends (s := s11) ph11 h.ph pi11 h.pinc
  let s12 := s11.write phase_ix ((s.st phase_ix + s.st phase_inc) % 4)
  have r12 : 0 ≤ (s.st phase_ix + s.st phase_inc) % 4 ∧ (s.st phase_ix + s.st phase_inc) % 4 ≤ 3 := by omega
  obtain ⟨s13, e13, f13⟩ := outputs_ends (s := s12) rfl r12
  have e14 : Ends Γ (.assign CCP1IE (int 1)) s13 (.ret ()) (s13.write CCP1IE 1) := assign_int _ _ (by decide +kernel)
  have t13 : (s13.write CCP1IE 1).st T1CON = s.st T1CON - s.st T1CON % 2 :=
    (f13.st (j := T1CON) (by decide)).trans (f11.st (j := T1CON) (by decide))
  have ht := h.t1
  have e15 := t1_on (s := s13.write CCP1IE 1) (by omega)
  refine ⟨_, ends_seq e1 (ends_seq e2 (ends_seq e3 (ends_seq e4 (ends_seq e5 (ends_seq e6 (ends_seq e7 (ends_seq e8 (ends_seq e9
    (ends_seq e10 (ends_seq e11 (ends_seq e12 (ends_seq e13 (ends_seq e14 e15))))))))))))), ?_⟩
  have l12 : Live s12 p d n (upAt 0) := by
    refine ⟨⟨?_, ?_, ?_, ?_, ?_, fun hh => absurd hh (by decide)⟩, ?_, ?_, ?_, h.dd, ?_, r12, ?_, ?_, nr⟩
    · exact f11.st (j := ramp_sts) (by decide)
    · exact f11.st (j := step_no) (by decide)
    · exact f11.st (j := c) (by decide)
    · exact f11.st (j := denom) (by decide)
    · exact f11.st (j := ccpr) (by decide)
    · exact (f11.st (j := move) (by decide)).trans h.mv
    · exact f11.st (j := midpt) (by decide)
    · exact (f11.st (j := pos_inc) (by decide)).trans h.inc
    · have := h.pinc; rw [← pi11] at this; exact this
    · rw [show p + d * (upAt 0).sn = p by simp [upAt]]
      exact (f11.st (j := motor_pos) (by decide)).trans h.pos
    · exact f11.st (j := run_flg) (by decide)
  have l13 := l12.same f13 (l12.at_.same f13 (by decide)) (by decide) rfl
  have f15 : Same [CCP1IE, T1CON] s13 ((s13.write CCP1IE 1).write T1CON ((s13.write CCP1IE 1).st T1CON -
      (s13.write CCP1IE 1).st T1CON % 2 + 1)) := ((Same.refl _ s13).write (by decide)).write (by decide)
  exact l13.same f15 (l13.at_.same f15 (by decide)) (by decide) rfl

theorem chk_sub16 : Chk (.ar .sub) (safeT s16) (safeT s16 : PTy names) () () s16 (ex s16 (-32768) 32767) 0 0 := by decide +kernel

/-- motor2.c:131-138 a difference of two positions -/
theorem move_ends {s : LState 30} {i j : Fin 30} (hi : Γ i = safeT s16) (hj : Γ j = safeT s16) {x y : Int} (hx : s.st i = x)
    (hy : s.st j = y) (ix : Pos x) (iy : Pos y) (h : 0 ≤ x - y ∧ x - y ≤ 32767) :
    Ends Γ (.assign move (sub (.var i) (.var j))) s (.ret ()) (s.write move (x - y)) := by
  have e : Ev Γ s.st (sub (.var i) (.var j)) (ex s16 (-32768) 32767) (x - y) :=
    ev_bin careful (ev_s16 i hi hx ix) (ev_s16 j hj hy iy) chk_sub16 rfl (in_s16 ix) (in_s16 iy) (in_s16 (by omega))
  exact assign_of careful good e (S := safeT u16) rfl (x := 0) (by decide +kernel) (show 0 ≤ _ ∧ _ ≤ 65535 by omega)

theorem ends_assign_throw {s : LState 30} {i : Fin 30} {e : Ex} {x : Err} (h : assignVal Γ s.st i e = .thrown x) :
    Ends Γ (.assign i e) s (.thrown x) s := ⟨1, fun f hf => by
  obtain ⟨g, rfl⟩ : ∃ g, f = g + 1 := ⟨f - 1, by omega⟩
  simp only [LStmt.exec, h, storing]⟩

theorem move_throws {s : LState 30} {i j : Fin 30} (hi : Γ i = safeT s16) (hj : Γ j = safeT s16) {x y : Int} (hx : s.st i = x)
    (hy : s.st j = y) (ix : Pos x) (iy : Pos y) (h : 32767 < x - y) :
    ∃ er, Ends Γ (.assign move (sub (.var i) (.var j))) s (.thrown er) s := by
  have ha := ev_s16 i hi hx ix
  have hb := ev_s16 j hj hy iy
  have hc := chk_sub16
  have key : ∃ er, pBinVal (.ar .sub) (safeT s16) (safeT s16 : PTy names) x y = .thrown er := by
    rcases pbin_good careful ha.wf hb.wf hc.covered ha.has hb.has with ⟨S', v', e1, w, e2, h3, e3⟩ | ⟨er, hx⟩ | hx
    · rw [hc.ty] at e1; cases e1
      cases e3
      exact absurd h3.2 (by show ¬ (x - y ≤ (32767 : Int)); omega)
    · exact ⟨er, hx⟩
    · exact absurd hx (phase2_of (pbin_phase careful ha.wf hb.wf hc.covered) hc.hx hc.hy hc.acc ha.has hb.has)
  obtain ⟨er, hk⟩ := key
  refine ⟨er, ends_assign_throw ?_⟩
  have ey : LExpr.eval Γ s.st (sub (.var i) (.var j)) = .thrown er := by
    simp only [LExpr.eval, LExpr.ty, hi, hj, hx, hy, ret_bind]
    exact hk
  have et : LExpr.ty Γ (sub (.var i) (.var j)) = .ret (ex s16 (-32768) 32767) := by
    simp only [LExpr.ty, hi, hj, ret_bind]; exact hc.ty
  simp only [assignVal, ey, et]
  rfl

/-- example92.cpp:140 the argument of `motor_run` -/
theorem arg_ends {s : LState 30} {q : Int} (h : s.st m = q) (hq : Pos q) (ht : (Γ m).opd.Has (s.st m)) :
    Ends Γ (.assign pos_new (.var m)) s (.ret ()) (s.write pos_new q) :=
  assign_of careful good (ev_var good m rfl h (by rw [← h]; exact ht)) (S := safeT s16) rfl (x := 0) (by decide +kernel) hq

theorem arg_throws {s : LState 30} {q : Int} (h : s.st m = q) (hq : ¬ Pos q) (ht : (Γ m).opd.Has (s.st m)) :
    ∃ er, Ends Γ (.assign pos_new (.var m)) s (.thrown er) s := by
  have ha : Ev Γ s.st (.var m) (safeT s32) q := ev_var good m rfl h (by rw [← h]; exact ht)
  have hc : ChkConv (Γ pos_new) (safeT s32) 0 := by decide +kernel
  have cc : ConvCovered (Γ pos_new) (safeT s32) := ⟨(good _).1, (good _).2, hc.safe.elim Or.inl (fun h => Or.inr (Or.inl h))⟩
  have key : ∃ er, convTo (Γ pos_new) (safeT s32) q = .thrown er := by
    rcases conv_good careful ha.wf cc ha.has with h' | h' | h'
    · exact absurd h'.2 hq
    · exact h'
    · exact absurd h' (phase1_of (conv_phase ha.wf cc) hc.hx hc.acc ha.has)
  obtain ⟨er, hk⟩ := key
  refine ⟨er, ends_assign_throw ?_⟩
  simp only [assignVal, ha.ty, ha.eval, ret_bind]
  exact hk

theorem cmp_positions (o : Rel) (ho : o = .lt ∨ o = .ne) {s : Fin 30 → Int} {p q : Int} (hq : s pos_new = q) (hp : s motor_pos = p)
    (ip : Pos p) (iq : Pos q) :
    (LCond.cmp o (.var pos_new) (.var motor_pos)).eval Γ s = .ret (rel o q p) := by
  rcases ho with rfl | rfl
  · exact cmp_of careful (ev_s16 pos_new rfl hq iq) (ev_s16 motor_pos rfl hp ip) (q := ()) (e := ()) (R := s16) (R' := s16) (x := 5) (y := 1)
      (by decide +kernel) (in_s16 iq) (in_s16 ip) (in_s16 iq) (in_s16 ip)
  · exact cmp_of careful (ev_s16 pos_new rfl hq iq) (ev_s16 motor_pos rfl hp ip) (q := ()) (e := ()) (R := s16) (R' := s16) (x := 5) (y := 1)
      (by decide +kernel) (in_s16 iq) (in_s16 ip) (in_s16 iq) (in_s16 ip)

/-- a `do` loop whose condition holds at the start is a `while` loop -/
theorem do_loop {s s' : LState 30} {r : Out Unit} {p d n : Int} {a : A} (h : Live s p d n a) (e : Ends Γ loop s r s') :
    Ends Γ (.seq turn loop) s r s' := by
  obtain ⟨k, e⟩ := e
  refine ⟨k + 1, fun f hf => ?_⟩
  obtain ⟨g, rfl⟩ : ∃ g, f = g + 1 := ⟨f - 1, by omega⟩
  have := e (g + 1) (by omega)
  rw [LStmt.exec, busy h.run] at this
  rw [LStmt.exec]
  exact this

/-- `motor_run` of a move that can be made -/
theorem run_ends {s : LState 30} {p q : Int} (hr : Ready s p q) (iq : Pos q) (hpq : p ≠ q) (hd : |q - p| ≤ 32767) :
    ∃ s' d, Ends Γ motor_run (s.write pos_new q) (.ret ()) s' ∧ (d = 1 ∨ d = -1) ∧ q = p + d * |q - p| ∧ Live s' p d |q - p| (upAt 0) := by
  have ip : Pos p := by have := hr.typed motor_pos; rw [hr.hp] at this; exact this
  have iph : 0 ≤ s.st phase_ix ∧ s.st phase_ix ≤ 255 := hr.typed phase_ix
  have it1 : 0 ≤ s.st T1CON ∧ s.st T1CON ≤ 255 := hr.typed T1CON
  have c1 := cmp_positions .lt (Or.inl rfl) (s := (s.write pos_new q).st) (p := p) (q := q) rfl hr.hp ip iq
  have c2 := cmp_positions .ne (Or.inr rfl) (s := (s.write pos_new q).st) (p := p) (q := q) rfl hr.hp ip iq
  rcases lt_or_gt_of_ne hpq with hlt | hlt
  · have ea : |q - p| = q - p := abs_of_nonneg (by omega)
    rw [ea] at hd ⊢
    let s1 := (s.write pos_new q).write move (q - p)
    have e1 : Ends Γ (.assign move (sub (.var pos_new) (.var motor_pos))) (s.write pos_new q) (.ret ()) s1 :=
      move_ends rfl rfl rfl hr.hp iq ip (by omega)
    have e2 : Ends Γ (.assign pos_inc (int 1)) s1 (.ret ()) (s1.write pos_inc 1) := assign_int _ _ (by decide +kernel)
    have e3 : Ends Γ (.assign phase_inc (int 1)) (s1.write pos_inc 1) (.ret ()) ((s1.write pos_inc 1).write phase_inc 1) :=
      assign_int _ _ (by decide +kernel)
    obtain ⟨s', e4, l⟩ := start_ends (s := (s1.write pos_inc 1).write phase_inc 1) (p := p) (d := 1) (n := q - p)
      ⟨rfl, rfl, Or.inl rfl, Or.inl rfl, iph, it1, hr.hp, hr.high, hr.low, by omega⟩
    refine ⟨s', 1, ends_ite c1 ?_, Or.inl rfl, by omega, l⟩
    have : rel .lt q p = false := by simp only [rel, decide_eq_false_iff_not]; omega
    rw [this, if_neg Bool.false_ne_true]
    refine ends_ite c2 ?_
    have : rel .ne q p = true := by simp only [rel, decide_eq_true_eq]; omega
    rw [this, if_pos rfl]
    exact ends_seq e1 (ends_seq e2 (ends_seq e3 e4))
  · have ea : |q - p| = p - q := by rw [abs_of_nonpos (by omega)]; omega
    rw [ea] at hd ⊢
    let s1 := (s.write pos_new q).write move (p - q)
    have e1 : Ends Γ (.assign move (sub (.var motor_pos) (.var pos_new))) (s.write pos_new q) (.ret ()) s1 :=
      move_ends rfl rfl hr.hp rfl ip iq (by omega)
    have e2 : Ends Γ (.assign pos_inc (int (-1))) s1 (.ret ()) (s1.write pos_inc (-1)) := assign_int _ _ (by decide +kernel)
    have e3 : Ends Γ (.assign phase_inc (int 0xff)) (s1.write pos_inc (-1)) (.ret ()) ((s1.write pos_inc (-1)).write phase_inc 255) :=
      assign_int _ _ (by decide +kernel)
    obtain ⟨s', e4, l⟩ := start_ends (s := (s1.write pos_inc (-1)).write phase_inc 255) (p := p) (d := -1) (n := p - q)
      ⟨rfl, rfl, Or.inr rfl, Or.inr rfl, iph, it1, hr.hp, hr.high, hr.low, by omega⟩
    refine ⟨s', -1, ends_ite c1 ?_, Or.inr rfl, by omega, l⟩
    have : rel .lt q p = true := by simp only [rel, decide_eq_true_eq]; omega
    rw [this, if_pos rfl]
    exact ends_seq e1 (ends_seq e2 (ends_seq e3 e4))

/-- `motor_run` of a move longer than a position can say -/
theorem run_throws {s : LState 30} {p q : Int} (hr : Ready s p q) (iq : Pos q) (hd : 32767 < |q - p|) :
    ∃ er, Ends Γ motor_run (s.write pos_new q) (.thrown er) (s.write pos_new q) := by
  have ip : Pos p := by have := hr.typed motor_pos; rw [hr.hp] at this; exact this
  have c1 := cmp_positions .lt (Or.inl rfl) (s := (s.write pos_new q).st) (p := p) (q := q) rfl hr.hp ip iq
  have c2 := cmp_positions .ne (Or.inr rfl) (s := (s.write pos_new q).st) (p := p) (q := q) rfl hr.hp ip iq
  rcases lt_trichotomy p q with hlt | hlt | hlt
  · rw [abs_of_nonneg (by omega)] at hd
    obtain ⟨er, e1⟩ := move_throws (s := s.write pos_new q) (i := pos_new) (j := motor_pos) (x := q) rfl rfl rfl hr.hp iq ip (by omega)
    refine ⟨er, ends_ite c1 ?_⟩
    have : rel .lt q p = false := by simp only [rel, decide_eq_false_iff_not]; omega
    rw [this, if_neg Bool.false_ne_true]
    refine ends_ite c2 ?_
    have : rel .ne q p = true := by simp only [rel, decide_eq_true_eq]; omega
    rw [this, if_pos rfl]
    exact ends_seq_throw e1
  · rw [hlt, sub_self, abs_zero] at hd; omega
  · rw [abs_of_nonpos (by omega)] at hd
    obtain ⟨er, e1⟩ := move_throws (s := s.write pos_new q) (i := motor_pos) (j := pos_new) (y := q) rfl rfl hr.hp rfl ip iq (by omega)
    refine ⟨er, ends_ite c1 ?_⟩
    have : rel .lt q p = true := by simp only [rel, decide_eq_true_eq]; omega
    rw [this, if_pos rfl]
    exact ends_seq_throw e1

/-- a turn of the loop when the motor is at rest -/
theorem turn_idle {s : LState 30} {v w : Int} (hs : s.st ramp_sts = 0) (hv : s.st c = v) (hw : s.st ccpr = w)
    (hc : 0 ≤ v ∧ v ≤ 1000000000) (hp : 0 ≤ w) (ho : w + v ≤ 4294967295) :
    ∃ s', Ends Γ turn s (.ret ()) s' ∧ s'.st motor_pos = s.st motor_pos ∧ s'.st run_flg = 0 := by
  let s1 := (s.write t v).write us ((v + 128) / 256)
  let s2 := s1.write ccpr (w + v)
  let s5 := ((s2.write ramp_sts 0).write CCP1IE 0).write run_flg 0
  have e1 : Ends Γ (.assign t (.var c)) s (.ret ()) (s.write t v) :=
    assign_of careful good (ev_u32 c rfl hv (by omega)) (S := safeT u32) rfl (x := 0) (by decide +kernel)
      (show 0 ≤ _ ∧ _ ≤ 4294967295 by omega)
  have e2 : Ends Γ (.assign us (div (add (.var t) (int 128)) (int 256))) (s.write t v) (.ret ()) s1 :=
    assign_of careful good (ev_us (v := v) rfl hc) (S := safeT s32) rfl (x := 0) (by decide +kernel)
      (show -2147483648 ≤ _ ∧ _ ≤ 2147483647 by omega)
  have e3 : Ends Γ (.opAssign (.ar .add) ccpr (.var c)) s1 (.ret ()) s2 :=
    ends_opAssign (opAssign_val careful good (T := safeT u32) (v := w + v) (S := ex u32 0 4294967295) rfl
      (show 0 ≤ _ ∧ _ ≤ 4294967295 by omega) (s := s1.st) hw (ev_u32 c rfl (s := s1.st) hv (by omega)) (q := ()) (e := ()) (R := u32)
      (z := 0) chk_ccpr (by decide +kernel) rfl (in_u32 (by omega)) (in_u32 (by omega)) (in_u32 (by omega))
      (show 0 ≤ _ ∧ _ ≤ 4294967295 by omega))
  have c1 := cmp_enum (s := s2.st) .eq (x := 0) (y := 1) hs (by omega) (by omega)
  have c2 := cmp_enum (s := s2.st) .eq (x := 0) (y := 3) hs (by omega) (by omega)
  have c3 := cmp_enum (s := s2.st) .eq (x := 0) (y := 2) hs (by omega) (by omega)
  have e4 : Ends Γ caseLast s2 (.ret ()) s5 :=
    ends_seq (s1 := s2.write ramp_sts 0) (ends_assign rfl) (ends_seq (s1 := (s2.write ramp_sts 0).write CCP1IE 0) (ends_assign rfl)
      (ends_assign rfl))
  have c4 := cmp_enum (s := s5.st) .ne (x := 0) (y := 0) rfl (by omega) (by omega)
  exact ⟨s5, ends_seq e1 (ends_seq e2 (ends_seq e3 (ends_seq (ends_ite c1 (ends_ite c2 (ends_ite c3 e4))) (ends_ite c4 (ends_skip _))))),
    rfl, rfl⟩

/-- `motor_run` of no move -/
theorem run_none {s : LState 30} {p : Int} (hr : Ready s p p) (ip : Pos p) :
    Ends Γ motor_run (s.write pos_new p) (.ret ()) (s.write pos_new p) := by
  have c1 := cmp_positions .lt (Or.inl rfl) (s := (s.write pos_new p).st) (p := p) (q := p) rfl hr.hp ip ip
  have c2 := cmp_positions .ne (Or.inr rfl) (s := (s.write pos_new p).st) (p := p) (q := p) rfl hr.hp ip ip
  refine ends_ite c1 ?_
  have : rel .lt p p = false := by simp [rel]
  rw [this, if_neg Bool.false_ne_true]
  refine ends_ite c2 ?_
  have : rel .ne p p = false := by simp [rel]
  rw [this, if_neg Bool.false_ne_true]
  exact ends_skip _

end Verif.Motor2
