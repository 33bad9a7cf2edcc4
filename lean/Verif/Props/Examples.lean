import Verif.Props.TrapIff
import Verif.Examples
import Verif.Proofs.Does
import Verif.Props.Input
import Verif.Props.Checked

/-!
C72: what the small example programs of the library do, for all values of their constants.
-/

namespace Verif.Props
open Spec Lang Run Examples

attribute [local instance] lp64

private theorem careful : Careful Examples.names :=
  ⟨fun e => by cases e <;> simp [Examples.names, defaultException, looseException, strictException, looseTrap],
    fun e => by cases e <;> decide +kernel⟩

instance (T : PTy Examples.names) : Decidable (PTy.Wf T) := inferInstanceAs (Decidable (_ ∧ _ ∧ _ ∧ _))

instance {n : Nat} (Γ : Fin n → PTy Examples.names) : Decidable (GoodVars Γ) :=
  inferInstanceAs (Decidable (∀ i, PTy.Wf (Γ i) ∧ NotLit (Γ i).opd))

instance (R : ITy) (T U : Opd) : Decidable (Apart R T U) := inferInstanceAs (Decidable (_ ∧ _ ∧ _ ∧ _))
instance (R : ITy) (T U : Opd) : Decidable (ZeroProduct R T U) := inferInstanceAs (Decidable (_ ∨ _))

private theorem has_range {B : ITy} {lo hi x : Int} : (Opd.range B lo hi).Has x ↔ lo ≤ x ∧ x ≤ hi := Iff.rfl
private theorem has_builtin {B : ITy} {x : Int} : (PTy.builtin (N := Examples.names) B).opd.Has x ↔ B.In x := Iff.rfl
private theorem in_s8 {x : Int} : s8.In x ↔ -128 ≤ x ∧ x ≤ 127 := Iff.rfl
private theorem in_s32 {x : Int} : s32.In x ↔ -2147483648 ≤ x ∧ x ≤ 2147483647 := Iff.rfl
private theorem in_s64 {x : Int} : s64.In x ↔ -9223372036854775808 ≤ x ∧ x ≤ 9223372036854775807 := Iff.rfl
private theorem in_u32 {x : Int} : u32.In x ↔ 0 ≤ x ∧ x ≤ 4294967295 := Iff.rfl

/-- example1.cpp: for all initial values `x`, `y` of type `int` the safe program stores the sum, if `x`, `y` and the sum are
values of `int8_t`; otherwise it throws (the example's `INT_MAX` already at the initialisation of `x`). -/
theorem C72_example1 (s : LState 5) (hs : Ranged Γ1 s.st) (x y : Int) (hx : s.st 0 = x) (hy : s.st 1 = y) :
    Does Γ1 ex1 s ((-128 ≤ x ∧ x ≤ 127) ∧ (-128 ≤ y ∧ y ≤ 127) ∧ (-128 ≤ x + y ∧ x + y ≤ 127))
      (((s.write 2 x).write 3 y).write 4 (x + y)) := by
  have hΓ : GoodVars Γ1 := by decide +kernel
  have h0 : s32.In x := hx ▸ hs 0
  have h1 : s32.In y := hy ▸ hs 1
  refine does_iff (P := s8.In x ∧ s8.In y ∧ (True ∧ True ∧ True) ∧ s8.In (x + y)) (by simp [in_s8])
    (does_seq (does_init careful hΓ 2 0 0 rfl rfl (by decide +kernel) hx h0) fun p => ?_)
  refine does_seq (does_init careful hΓ 3 1 0 rfl rfl (by decide +kernel) hy h1) fun q => ?_
  refine does_assign careful hΓ (S := safe s8) (x := 0) (ex_bin careful (ev_var hΓ 2 (T := safe s8) (v := x) rfl rfl p).ex
    (ev_var hΓ 3 (T := safe s8) (v := y) rfl rfl q).ex
    (q := .native) (e := .default_exception_policy) (R := s32) (S := range s32 (-256) 254) (x := 0) (y := 0)
    (by decide +kernel) (by decide +kernel) (fun _ _ _ => rfl) (fun _ _ => ?_)) rfl (by decide +kernel)
  rw [fits_iff (by decide) (by simp)]
  simp [in_s8, in_s32, imath] at *
  omega

/-- the same program without the library stores a wrong value (or none, but never reports it), whenever the sum is not a value
of `int8_t` -/
theorem C72_example1_builtin (s : LState 5) (x y : Int) (hx : s.st 0 = x) (hy : s.st 1 = y) (h1 : -128 ≤ x ∧ x ≤ 127)
    (h2 : -128 ≤ y ∧ y ≤ 127) (h3 : ¬ (-128 ≤ x + y ∧ x + y ≤ 127)) :
    ∃ s', Ends Γ1c ex1 s (.ret ()) s' ∧ s'.st 4 ≠ x + y := by
  subst hx hy
  have i1 : s8.In (s.st 0) := h1
  have i2 : s8.In (s.st 1) := h2
  have e1 : assignVal Γ1c s.st 2 (.var 0) = .ret (s.st 0) := congrArg Out.ret (conv_of_in i1)
  have e2 : assignVal Γ1c (s.write 2 (s.st 0)).st 3 (.var 1) = .ret (s.st 1) := congrArg Out.ret (conv_of_in i2)
  have e3 : assignVal Γ1c ((s.write 2 (s.st 0)).write 3 (s.st 1)).st 4 (Examples.add (.var 2) (.var 3)) =
      .ret (conv s8 (s.st 0 + s.st 1)) := by
    have : cAdd s8 s8 (s.st 0) (s.st 1) = .ret (s.st 0 + s.st 1) :=
      cAdd_eq (in_uac_self i1) (in_uac_left_signed (T := s8) (U := s8) rfl rfl i2) (in_s32.2 (by omega))
    show (cAdd s8 s8 (s.st 0) (s.st 1) >>= fun v => Out.ret (conv s8 v)) = _
    rw [this]; rfl
  refine ⟨_, ends_seq (ends_assign e1) (ends_seq (ends_assign e2) (ends_assign e3)), fun h => h3 ?_⟩
  have : conv s8 (s.st 0 + s.st 1) = s.st 0 + s.st 1 := h
  exact conv_eq_iff.1 this

/-- example8.cpp: for all initial values `x`, `y` of type `int` the program stores `y - x`, if `0 ≤ x ≤ y`; otherwise it throws. -/
theorem C72_example8 (s : LState 5) (hs : Ranged Γ8 s.st) (x y : Int) (hx : s.st 0 = x) (hy : s.st 1 = y) :
    Does Γ8 ex8 s (0 ≤ x ∧ x ≤ y) (((s.write 2 x).write 3 y).write 4 (y - x)) := by
  have hΓ : GoodVars Γ8 := by decide +kernel
  have h0 : s32.In x := hx ▸ hs 0
  have h1 : s32.In y := hy ▸ hs 1
  refine does_iff (P := u32.In x ∧ u32.In y ∧ (True ∧ True ∧ x ≤ y) ∧ u32.In (y - x))
    (by simp [in_u32, in_s32] at *; omega)
    (does_seq (does_init careful hΓ 2 0 0 rfl rfl (by decide +kernel) hx h0) fun p => ?_)
  refine does_seq (does_init careful hΓ 3 1 0 rfl rfl (by decide +kernel) hy h1) fun q => ?_
  refine does_assign careful hΓ (S := safe u32) (x := 0) (ex_bin careful (ev_var hΓ 3 (T := safe u32) (v := y) rfl rfl q).ex
    (ev_var hΓ 2 (T := safe u32) (v := x) rfl rfl p).ex
    (q := .native) (e := .default_exception_policy) (R := u32) (S := safe u32) (x := 0) (y := 0)
    (by decide +kernel) (by decide +kernel) (fun _ _ _ => rfl) (fun _ _ => ?_)) rfl (by decide +kernel)
  rw [fits_iff (by decide) (by simp)]
  simp [in_u32, imath] at *
  omega

/-- example11.cpp: the program never throws at `x + y`: contrary to the comment, there is no exception, and the sum is exact. -/
theorem C72_example11 (s : LState 5) (hs : Ranged Γ11 s.st) (x y : Int) (hx : s.st 0 = x) (hy : s.st 1 = y) :
    Does Γ11 ex11 s ((-128 ≤ x ∧ x ≤ 127) ∧ (-128 ≤ y ∧ y ≤ 127)) (((s.write 2 x).write 3 y).write 4 (x + y)) := by
  have hΓ : GoodVars Γ11 := by decide +kernel
  have h0 : s32.In x := hx ▸ hs 0
  have h1 : s32.In y := hy ▸ hs 1
  refine does_iff (P := s8.In x ∧ s8.In y ∧ (True ∧ True ∧ True) ∧ (range s32 (-256) 254).opd.Has (x + y))
    (by simp [in_s8, has_range] at *; omega)
    (does_seq (does_init careful hΓ 2 0 0 rfl rfl (by decide +kernel) hx h0) fun p => ?_)
  refine does_seq (does_init careful hΓ 3 1 0 rfl rfl (by decide +kernel) hy h1) fun q => ?_
  refine does_assign careful hΓ (S := range s32 (-256) 254) (x := 0)
    (ex_bin careful (ev_var hΓ 2 (T := safe s8) (v := x) rfl rfl p).ex (ev_var hΓ 3 (T := safe s8) (v := y) rfl rfl q).ex
    (q := .native) (e := .default_exception_policy) (R := s32) (S := range s32 (-256) 254) (x := 0) (y := 0)
    (by decide +kernel) (by decide +kernel) (fun _ _ _ => rfl) (fun _ _ => ?_)) rfl (by decide +kernel)
  rw [fits_iff (by decide) (by simp)]
  simp [in_s8, in_s32, imath] at *
  omega

/-- example2.cpp: for every initial value of type `int`, `++x` adds one; for `INT_MAX` it throws, and only then. -/
theorem C72_example2 (s : LState 2) (hs : Ranged Γ2 s.st) (x : Int) (hx : s.st 0 = x) :
    Does Γ2 ex2 s (x < 2147483647) ((s.write 1 x).write 1 (x + 1)) := by
  have hΓ : GoodVars Γ2 := by decide +kernel
  have h0 : s32.In x := hx ▸ hs 0
  refine does_iff (P := s32.In x ∧ (x < 2147483647 ∧ s32.In (x + 1))) (by simp [in_s32] at *; omega)
    (does_seq (does_init careful hΓ 1 0 0 rfl rfl (by decide +kernel) hx h0) fun p => ?_)
  have := opAssign_gives careful hΓ (s := (s.write 1 x).st) (o := .ar .add) (i := 1) (T := safe s32) (t := x) rfl p rfl
    (ev_const s32 1 (by decide)) (q := .native) (e := .default_exception_policy) (R := s32)
    (S := safe s32) (x := 0) (y := 0) (z := 0) (v := x + 1) (P3 := x < 2147483647)
    (by decide +kernel) (by decide +kernel) (by decide +kernel) (fun _ => rfl) (by
      rw [fits_iff (by decide) (by simp)]
      simp [in_s32, imath] at *
      omega)
  exact does_storing (fun f => rfl) this.1 this.2

/-- example3.cpp: for every initial value of type `int`, `--x` on an unsigned number subtracts one; it throws iff the number is zero
(a negative initial value is not accepted in the first place). -/
theorem C72_example3 (s : LState 2) (hs : Ranged Γ3 s.st) (x : Int) (hx : s.st 0 = x) :
    Does Γ3 ex3 s (0 < x) ((s.write 1 x).write 1 (x - 1)) := by
  have hΓ : GoodVars Γ3 := by decide +kernel
  have h0 : s32.In x := hx ▸ hs 0
  refine does_iff (P := u32.In x ∧ (0 < x ∧ u32.In (x - 1))) (by simp [in_s32, in_u32] at *; omega)
    (does_seq (does_init careful hΓ 1 0 0 rfl rfl (by decide +kernel) hx h0) fun p => ?_)
  have := opAssign_gives careful hΓ (s := (s.write 1 x).st) (o := .ar .sub) (i := 1) (T := safe u32) (t := x) rfl p rfl
    (ev_const s32 1 (by decide)) (q := .native) (e := .default_exception_policy) (R := u32)
    (S := safe u32) (x := 0) (y := 0) (z := 0) (v := x - 1) (P3 := 0 < x)
    (by decide +kernel) (by decide +kernel) (by decide +kernel) (fun _ => rfl) (by
      rw [fits_iff (by decide) (by simp)]
      simp [in_u32, imath] at *
      omega)
  exact does_storing (fun f => rfl) this.1 this.2

/-- example4.cpp: for all initial values `a`, `b` of type `int` the right line is printed, if neither is negative; otherwise the
program throws (for a negative `a` at the comparison, although `a < b` would be true). -/
theorem C72_example4 (s : LState 5) (hs : Ranged Γ4 s.st) (a b : Int) (ha : s.st 0 = a) (hb : s.st 1 = b) :
    Does Γ4 ex4 s (0 ≤ a ∧ 0 ≤ b) (((s.write 2 a).write 3 b).write 4 (if a < b then 1 else 0)) := by
  have hΓ : GoodVars Γ4 := by decide +kernel
  have h0 : s32.In a := ha ▸ hs 0
  have h1 : s32.In b := hb ▸ hs 1
  refine does_iff (P := s32.In a ∧ u32.In b ∧ 0 ≤ a ∧ True)
    (by simp [in_u32, in_s32] at *; omega)
    (does_seq (does_init careful hΓ 2 0 0 rfl rfl (by decide +kernel) ha h0) fun p => ?_)
  refine does_seq (does_init careful hΓ 3 1 0 rfl rfl (by decide +kernel) hb h1) fun q => ?_
  have hc : ChkCmp .lt (safe s32) (safe u32) .native .default_exception_policy u32 u32 0 0 := by decide +kernel
  have hw : PTy.Wf (safe s32) ∧ PTy.Wf (safe u32) := by decide +kernel
  have hg := hc.gives careful hw.1 hw.2 p q (R1 := u32) (by decide +kernel)
  have hf : CmpFits u32 .lt (Opd.ofSafe s32) (Opd.ofSafe u32) a b ↔ 0 ≤ a := by
    have g1 : ¬ Apart u32 (Opd.ofSafe s32) (Opd.ofSafe u32) := by decide +kernel
    have g2 : ¬ Apart u32 (Opd.ofSafe u32) (Opd.ofSafe s32) := by decide +kernel
    simp [CmpFits, g1, g2, in_u32, in_s32] at *
    omega
  refine does_ite (v := decide (a < b)) (fun h => hg.1 (hf.2 h)) (fun h => hg.2 (fun g => h (hf.1 g))) fun h => ?_
  by_cases hab : a < b
  · simp only [hab, decide_true, if_true]
    exact does_copy rfl (ev_const s32 1 (by decide))
  · simp only [hab, decide_false, if_false]
    exact does_copy rfl (ev_const s32 0 (by decide))

/-- example5.cpp: an index is accepted iff it is one of the 37 elements of the array. -/
theorem C72_example5 (s : LState 2) (hs : Ranged Γ5 s.st) (k : Int) (hk : s.st 0 = k) :
    Does Γ5 ex5 s (0 ≤ k ∧ k ≤ 36) (s.write 1 k) :=
  does_init careful (by decide +kernel) 1 0 0 rfl rfl (by decide +kernel) hk (hk ▸ hs 0)

/-- example19.cpp: `i = v` throws iff `v` is not in the range 7 to 24. -/
theorem C72_example19_assign (s : LState 4) (hs : Ranged Γ19 s.st) (v : Int) (hv : s.st 0 = v) :
    Does Γ19 ex19_assign s (7 ≤ v ∧ v ≤ 24) (s.write 1 v) :=
  does_init careful (by decide +kernel) 1 0 0 rfl rfl (by decide +kernel) hv (hv ▸ hs 0)

/-- example19.cpp: `i *= v` compiles, contrary to the comment; it throws iff the product is not in the range 7 to 24. -/
theorem C72_example19_times (s : LState 4) (hs : Ranged Γ19 s.st) (i v : Int) (hi : s.st 1 = i) (hv : s.st 0 = v) :
    Does Γ19 ex19_times s (7 ≤ i * v ∧ i * v ≤ 24) (s.write 1 (i * v)) := by
  have hΓ : GoodVars Γ19 := by decide +kernel
  have h0 : s32.In v := hv ▸ hs 0
  have h1 : (range u8 7 24).opd.Has i := hi ▸ hs 1
  have := opAssign_gives careful hΓ (s := s.st) (o := .ar .mul) (i := 1) (T := range u8 7 24) (t := i) rfl h1 hi
    (ev_var hΓ 0 (T := builtin s32) (v := v) rfl hv h0) (q := .native) (e := .default_exception_policy) (R := s32)
    (S := safe s32) (x := 7) (y := 0) (z := 0) (v := i * v) (P3 := s32.In (i * v))
    (by decide +kernel) (by decide +kernel) (by decide +kernel) (fun _ => rfl) (by
      rw [fits_iff (by decide) (by decide +kernel)]
      simp [in_s32, has_range, imath] at *
      omega)
  refine does_iff (P := s32.In (i * v) ∧ (range u8 7 24).opd.Has (i * v)) ?_ (does_storing (fun f => rfl) this.1 this.2)
  show (-2147483648 ≤ i * v ∧ i * v ≤ 2147483647) ∧ (7 ≤ i * v ∧ i * v ≤ 24) ↔ _
  omega

/-- example19.cpp: `i + j` never throws and is exact; its type has the range 7 to 279. -/
theorem C72_example19_sum (s : LState 4) (hs : Ranged Γ19 s.st) (i j : Int) (hi : s.st 1 = i) (hj : s.st 2 = j) :
    Ends Γ19 ex19_sum s (.ret ()) (s.write 3 (i + j)) ∧ 7 ≤ i + j ∧ i + j ≤ 279 := by
  have hΓ : GoodVars Γ19 := by decide +kernel
  have h1 : (range u8 7 24).opd.Has i := hi ▸ hs 1
  have h2 : u8.In j := hj ▸ hs 2
  have h3 : 0 ≤ j ∧ j ≤ 255 := h2
  have h4 : 7 ≤ i ∧ i ≤ 24 := h1
  refine ⟨(does_assign careful hΓ (S := range s32 7 279) (x := 7)
    (ex_bin careful (ev_var hΓ 1 (T := range u8 7 24) (v := i) rfl hi h1).ex
    (ev_var hΓ 2 (T := builtin u8) (v := j) rfl hj h2).ex
    (q := .native) (e := .default_exception_policy) (R := s32) (S := range s32 7 279) (x := 7) (y := 0) (P3 := True)
    (by decide +kernel) (by decide +kernel) (fun _ _ _ => rfl) (fun _ _ => ?_)) rfl (by decide +kernel)).1
    ⟨⟨trivial, trivial, trivial⟩, ?_⟩, by omega, by omega⟩
  · rw [fits_iff (by decide) (by simp)]
    simp [in_s32, imath] at *
    omega
  · show 7 ≤ i + j ∧ i + j ≤ 279
    omega

/-- example7.cpp: the contract is enforced: for all unsigned `hours` and `minutes` the function returns the number of minutes, if
`hours ≤ 23` and `minutes ≤ 59`; otherwise it throws. But, contrary to the comment (example7.cpp:38), the type of the result is not the range 0 to
1439: the constant `60` is an arbitrary `int` to the library, and the result type is `safe<int>`. -/
theorem C72_example7 (s : LState 3) (hs : Ranged Γ7 s.st) (h m : Int) (hh : s.st 0 = h) (hm : s.st 1 = m) :
    Does Γ7 ex7 s (h ≤ 23 ∧ m ≤ 59) (s.write 2 (h * 60 + m)) ∧ test3.ty Γ7 = .ret (safe s32) := by
  have hΓ : GoodVars Γ7 := by decide +kernel
  have h0 : u32.In h := hh ▸ hs 0
  have h1 : u32.In m := hm ▸ hs 1
  have e1 := ex_cast careful (ev_var hΓ 0 (T := builtin u32) rfl hh h0).ex (S := hours_t) (x := 0) (by decide +kernel)
    (by decide +kernel) (by decide +kernel)
  have e2 := ex_bin careful e1 (ev_const (Γ := Γ7) s32 60 (by decide)).ex (o := .ar .mul) (q := .native)
    (e := .default_exception_policy) (R := s32) (S := safe s32) (x := 0) (y := 60) (P3 := True) (v := h * 60)
    (by decide +kernel) (by decide +kernel) (fun _ _ _ => rfl) (fun p _ => by
      rw [fits_iff (by decide) (by decide +kernel)]
      simp [in_s32, imath, has_range] at *
      omega)
  have e3 := ex_cast careful (ev_var hΓ 1 (T := builtin u32) rfl hm h1).ex (S := minutes_t) (x := 0) (by decide +kernel)
    (by decide +kernel) (by decide +kernel)
  have e4 := ex_bin careful e2 e3 (o := .ar .add) (q := .native)
    (e := .default_exception_policy) (R := s32) (S := safe s32) (x := 0) (y := 0) (P3 := True) (v := h * 60 + m)
    (by decide +kernel) (by decide +kernel) (fun _ _ _ => rfl) (fun p p' => by
      rw [fits_iff (by decide) (by simp)]
      simp [in_s32, imath, has_range] at *
      omega)
  refine ⟨does_iff ?_ (does_assign careful hΓ e4 (i := 2) (S := builtin u32) (x := 0) rfl (by decide +kernel)), e4.ty⟩
  simp [in_u32, has_range, has_builtin] at *
  omega

/-- example10.cpp: for all arguments of type `int` the product is printed, if `x` is not negative, `y` is in the range 0 to 127 and
the product fits `unsigned`; otherwise the program throws (also for `0 * -1`). -/
theorem C72_example10 (s : LState 4) (hs : Ranged Γ10 s.st) (x y : Int) (hx : s.st 0 = x) (hy : s.st 1 = y) :
    Does Γ10 ex10 s (0 ≤ x ∧ (0 ≤ y ∧ y ≤ 127) ∧ x * y ≤ 4294967295)
      { (s.write 2 x).write 3 y with out := s.out ++ printInt (x * y) } := by
  have hΓ : GoodVars Γ10 := by decide +kernel
  have h0 : s32.In x := hx ▸ hs 0
  have h1 : s32.In y := hy ▸ hs 1
  refine does_iff (P := u32.In x ∧ s8.In y ∧ (True ∧ True ∧ 0 ≤ y ∧ x * y ≤ 4294967295))
    (by simp [in_u32, in_s32, in_s8] at *; omega)
    (does_seq (does_init careful hΓ 2 0 0 rfl rfl (by decide +kernel) hx h0) fun p => ?_)
  refine does_seq (does_init careful hΓ 3 1 0 rfl rfl (by decide +kernel) hy h1) fun q => ?_
  refine does_output (T := safe u32) (ex_bin careful (ev_var hΓ 2 (T := safe u32) (v := x) rfl rfl p).ex
    (ev_var hΓ 3 (T := safe s8) (v := y) rfl rfl q).ex
    (q := .native) (e := .default_exception_policy) (R := u32) (S := safe u32) (x := 0) (y := 0)
    (by decide +kernel) (by decide +kernel) (fun _ _ _ => rfl) (fun _ _ => ?_)) rfl
  rw [fits_iff (by decide) (by decide +kernel)]
  simp [in_u32, in_s8, imath] at *
  constructor
  · omega
  · intro g
    have := Int.mul_nonneg p.1 g.1
    omega

/-- example13.cpp, example14.cpp: for all initial values of type `int` the quotient is printed; the program throws iff the divisor is
zero or the quotient is not an `int`. -/
theorem C72_example13 (s : LState 4) (hs : Ranged Γ13 s.st) (x y : Int) (hx : s.st 0 = x) (hy : s.st 1 = y) :
    Does Γ13 ex13 s (y ≠ 0 ∧ ¬ (x = -2147483648 ∧ y = -1))
      { (s.write 2 x).write 3 y with out := s.out ++ printInt (x.tdiv y) } := by
  have hΓ : GoodVars Γ13 := by decide +kernel
  have h0 : s32.In x := hx ▸ hs 0
  have h1 : s32.In y := hy ▸ hs 1
  refine does_iff (P := s32.In x ∧ s32.In y ∧ (True ∧ True ∧ y ≠ 0 ∧ ¬ (x = -2147483648 ∧ y = -1)))
    (by simp [in_s32] at *; omega)
    (does_seq (does_init careful hΓ 2 0 0 rfl rfl (by decide +kernel) hx h0) fun p => ?_)
  refine does_seq (does_init careful hΓ 3 1 0 rfl rfl (by decide +kernel) hy h1) fun q => ?_
  refine does_output (T := safe s32) (ex_bin careful (ev_var hΓ 2 (T := safe s32) (v := x) rfl rfl p).ex
    (ev_var hΓ 3 (T := safe s32) (v := y) rfl rfl q).ex
    (q := .native) (e := .default_exception_policy) (R := s32) (S := safe s32) (x := 0) (y := 1)
    (by decide +kernel) (by decide +kernel) (fun _ _ h => if_neg h.1) (fun _ _ => ?_)) rfl
  rw [fits_iff (by decide) (by simp)]
  constructor
  · intro ⟨_, _, w, hw, iw⟩
    by_cases y0 : y = 0
    · simp [imath, y0] at hw
    · simp only [imath, if_neg y0, Option.some.injEq] at hw
      subst hw
      refine ⟨y0, fun ⟨h1, h2⟩ => ?_⟩
      subst h1 h2
      exact absurd iw (by decide)
  · intro ⟨y0, g⟩
    exact ⟨p, q, _, if_neg y0, tdiv_in p q y0 fun h => g ⟨h.2.2, h.2.1⟩⟩

/-- example16.cpp: for every initial value of type `long` the function is called, if the value is an `int`; otherwise the program
throws. -/
theorem C72_example16 (s : LState 3) (hs : Ranged Γ16 s.st) (y : Int) (hy : s.st 0 = y) :
    Does Γ16 ex16 s (-2147483648 ≤ y ∧ y ≤ 2147483647) ((s.write 1 y).write 2 y) := by
  have hΓ : GoodVars Γ16 := by decide +kernel
  have h0 : s64.In y := hy ▸ hs 0
  refine does_iff (P := s64.In y ∧ s32.In y) ?_
    (does_seq (does_init careful hΓ 1 0 0 rfl rfl (by decide +kernel) hy h0) fun p =>
      does_init careful hΓ 2 1 0 rfl rfl (by decide +kernel) rfl p)
  exact ⟨fun h => h.2, fun h => ⟨h0, h⟩⟩

private theorem rejected_assign {n : Nat} {Γ : Fin n → PTy Examples.names} {i : Fin n} {e : LExpr Examples.names n}
    (h : ∀ s, Ranged Γ s → assignVal Γ s i e = .fault .illFormed) : Rejected Γ (.assign i e) := by
  intro s hs
  refine ⟨s, 1, fun f hf => ?_⟩
  obtain ⟨g, rfl⟩ : ∃ g, f = g + 1 := ⟨f - 1, by omega⟩
  simp only [LStmt.exec, h s.st hs, storing]

/-- example17.cpp: the call is rejected by the compiler. -/
theorem C72_example17 : Rejected Γ17 ex17 := by
  refine rejected_assign fun s hs => ?_
  show convTo (builtin u8) (trapping .native (Opd.ofSafe s64)) (s 0) = _
  rcases conv_phase (S := builtin u8) (T := trapping .native (Opd.ofSafe s64)) (by decide +kernel)
    ⟨by decide +kernel, by decide +kernel, Or.inr (Or.inl rfl)⟩ with h | h
  · exact h _ (hs 0)
  · exact absurd (show convTo (builtin u8) (trapping .native (Opd.ofSafe s64)) 97 = .fault .illFormed by decide +kernel)
      (h 97 (by decide +kernel))

/-- example18.cpp: a literal of any value can be passed to the function if the value is an `int`. -/
theorem C72_example18 (s : LState 1) (B : ITy) (hB : B.Ok) (k : Int) (hk : B.In k) (hi : -2147483648 ≤ k ∧ k ≤ 2147483647) :
    Ends Γ18 (ex18 B k) s (.ret ()) (s.write 0 k) := by
  have h : s32.In k := hi
  exact ends_assign ((C40_convert looseTrap s32 B hB k true hk).1 h)

/-- example81.cpp: the addition is rejected by the compiler. -/
theorem C72_example81 : Rejected Γ81 ex81 := by
  refine rejected_assign fun s hs => ?_
  have hb : ∀ t u, s32.In t → s32.In u → pBinVal (.ar .add) (Γ81 0) (Γ81 1) t u = .fault .illFormed := by
    rcases pbin_phase careful (o := .ar .add) (T := Γ81 0) (U := Γ81 1) (by decide +kernel) (by decide +kernel)
      ⟨Or.inl rfl, fun _ _ _ _ => trivial⟩ with h | h
    · exact fun t u ht hu => h t u ht hu
    · exact absurd (show pBinVal (.ar .add) (Γ81 0) (Γ81 1) 2147483647 2 = .fault .illFormed by decide +kernel)
        (h 2147483647 2 (by decide +kernel) (by decide +kernel))
  have ht : (Examples.add (.var 0) (.var 1) : LExpr Examples.names 3).ty Γ81 = .ret (Γ81 0) := by decide +kernel
  show ((Examples.add (.var 0) (.var 1) : LExpr Examples.names 3).ty Γ81 >>= fun T =>
    pBinVal (.ar .add) (Γ81 0) (Γ81 1) (s 0) (s 1) >>= fun v => convTo (Γ81 2) T v) = _
  rw [ht, hb _ _ (hs 0) (hs 1)]; rfl

/-- example82.cpp: with automatic promotion the same addition compiles, never fails, and is exact for all values. -/
theorem C72_example82 (s : LState 3) (hs : Ranged Γ82 s.st) (x y : Int) (hx : s.st 0 = x) (hy : s.st 1 = y) :
    Ends Γ82 ex82 s (.ret ()) (s.write 2 (x + y)) := by
  have hΓ : GoodVars Γ82 := by decide +kernel
  have h0 : s32.In x := hx ▸ hs 0
  have h1 : s32.In y := hy ▸ hs 1
  have h0' := in_s32.1 h0
  have h1' := in_s32.1 h1
  refine (does_assign careful hΓ (S := trapping .automatic (Opd.range s64 (-4294967296) 4294967294)) (x := 0)
    (ex_bin careful (ev_var hΓ 0 (T := trapping .automatic (Opd.ofSafe s32)) (v := x) rfl hx h0).ex
    (ev_var hΓ 1 (T := trapping .automatic (Opd.ofSafe s32)) (v := y) rfl hy h1).ex
    (q := .automatic) (e := .loose_trap_policy) (R := s64) (S := trapping .automatic (Opd.range s64 (-4294967296) 4294967294))
    (x := 0) (y := 0) (P3 := True)
    (by decide +kernel) (by decide +kernel) (fun _ _ _ => rfl) (fun _ _ => ?_)) rfl (by decide +kernel)).1
    ⟨⟨trivial, trivial, trivial⟩, ?_⟩
  · rw [fits_iff (by decide) (by simp)]
    simp [in_s64, imath] at *
    omega
  · show -4294967296 ≤ x + y ∧ x + y ≤ 4294967294
    omega

private theorem lit_wf {k : Int} (h : s8.In k) : (litTy s8 k true).Wf :=
  ⟨show s8.Ok by decide, h, h, le_refl _, nofun, fun _ _ => rfl⟩

private theorem range_wf {k : Int} (h : s32.In k) : (Opd.range s32 k k).Wf :=
  ⟨show s32.Ok by decide, h, h, le_refl _, nofun, nofun⟩

/-- example83.cpp, for literals with any values of `signed char`: if their sum is in the range of `z` the program compiles and `z`
is that sum, otherwise the compiler rejects it. -/
theorem C72_example83 (s : LState 1) (a b : Int) (ha : s8.In a) (hb : s8.In b) :
    (-24 ≤ a + b ∧ a + b ≤ 82 → Ends Γ83 (ex83 a b) s (.ret ()) (s.write 0 (a + b))) ∧
    (¬ (-24 ≤ a + b ∧ a + b ≤ 82) → Ends Γ83 (ex83 a b) s (.fault .illFormed) s) := by
  have wa := lit_wf ha; have wb := lit_wf hb
  have a1 : -128 ≤ a := ha.1
  have a2 : a ≤ 127 := ha.2
  have b1 : -128 ≤ b := hb.1
  have b2 : b ≤ 127 := hb.2
  have fit : ∀ t u, (litTy s8 a true).Has t → (litTy s8 b true).Has u → s32.In t ∧ s32.In u ∧ s32.In (t + u) := by
    rintro t u ⟨p1, p2⟩ ⟨q1, q2⟩
    obtain rfl : t = a := le_antisymm p2 p1
    obtain rfl : u = b := le_antisymm q2 q1
    refine ⟨⟨?_, ?_⟩, ⟨?_, ?_⟩, ⟨?_, ?_⟩⟩
    · show -2147483648 ≤ t; omega
    · show t ≤ 2147483647; omega
    · show -2147483648 ≤ u; omega
    · show u ≤ 2147483647; omega
    · show -2147483648 ≤ t + u; omega
    · show t + u ≤ 2147483647; omega
  have hab := (fit a b ⟨le_refl _, le_refl _⟩ ⟨le_refl _, le_refl _⟩).2.2
  have er : ∀ f : ITy → Out Opd, (PP.native.result .add (litTy s8 a true) (litTy s8 b true) >>= f) = f s32 := fun _ => rfl
  have er' : ∀ f : ITy → Out Int, (PP.native.result .add (litTy s8 a true) (litTy s8 b true) >>= f) = f s32 := fun _ => rfl
  have ty : arithTy .native .add (litTy s8 a true) (litTy s8 b true) = .ret (Opd.range s32 (a + b) (a + b)) := by
    unfold arithTy
    erw [er]
    unfold resTy
    erw [add_res wa wb fit]
    rfl
  have val : arith .native looseTrap .add (litTy s8 a true) (litTy s8 b true) a b = .ret (a + b) := by
    unfold arith
    erw [er']
    show runOp opAdd looseTrap s32 _ _ a b = _
    rw [runAdd_trap (p := looseTrap) rfl wa wb (t := a) (u := b) ⟨le_refl _, le_refl _⟩ ⟨le_refl _, le_refl _⟩, add_accept wa wb fit]
    rfl
  have key : assignVal Γ83 s.st 0 (Examples.add (.lit (literal s8 a)) (.lit (literal s8 b))) =
      construct looseTrap (Opd.range s8 (-24) 82) (Opd.range s32 (a + b) (a + b)) (a + b) := by
    show ((do
      let S ← arithTy .native .add (litTy s8 a true) (litTy s8 b true)
      Out.ret (⟨S, some Prom.native, some Exc.loose_trap_policy⟩ : PTy Examples.names)) >>= fun T =>
      arith .native looseTrap .add (litTy s8 a true) (litTy s8 b true) a b >>= fun v => convTo (Γ83 0) T v) = _
    rw [ty, val]
    show (if (⟨Opd.range s32 (a + b) (a + b), some Prom.native, some Exc.loose_trap_policy⟩ : PTy Examples.names) = Γ83 0 then
      Out.ret (a + b) else validate s8 (-24) 82 looseTrap (Opd.range s32 (a + b) (a + b)) (a + b)) = _
    unfold construct
    rw [if_neg (by rintro h; injection h with h; injection h with h; cases h), if_neg (by rintro h; injection h with h; cases h)]
    rfl
  have wr := range_wf hab
  have wz : (Opd.range s8 (-24) 82).Wf := by decide
  have iff := C73_construct looseTrap rfl _ _ wz wr (a + b) ⟨le_refl _, le_refl _⟩
  constructor
  · intro h
    have acc := iff.2 fun x hx => by
      obtain rfl : x = a + b := le_antisymm hx.2 hx.1
      exact h
    rcases C30_construct looseTrap rfl _ _ wz wr with g | g
    · exact absurd (g _ ⟨le_refl _, le_refl _⟩) acc
    · exact ends_assign (key.trans (g _ ⟨le_refl _, le_refl _⟩).1)
  · intro h
    have rej : construct looseTrap (Opd.range s8 (-24) 82) (Opd.range s32 (a + b) (a + b)) (a + b) = .fault .illFormed := by
      by_contra hn
      exact h (iff.1 hn (a + b) ⟨le_refl _, le_refl _⟩)
    exact ⟨1, fun f hf => by
      obtain ⟨g, rfl⟩ : ∃ g, f = g + 1 := ⟨f - 1, by omega⟩
      simp only [ex83, LStmt.exec, key, rej, storing]⟩

private theorem input_number {old k : Int} {s : IStream} {neg : Bool} {rest : List Char} (he : s.eof = false) (hf : s.fail = false)
    (hN : NumberAt s.buf neg k rest) :
    (s32.In k → input defaultException (Opd.ofSafe s32) old s = (.ret (), k, ⟨rest, rest.isEmpty, false⟩)) ∧
    (¬ s32.In k → ∃ x, (input defaultException (Opd.ofSafe s32) old s).1 = .thrown x) := by
  have hp : defaultException.ae = .throw := rfl
  have hT : (Opd.ofSafe s32).Wf := by decide +kernel
  have hst : inputStatic defaultException (Opd.ofSafe s32) = .ret () := by decide +kernel
  have out : (input defaultException (Opd.ofSafe s32) old s).1 = .ret () ∨ ∃ x, (input defaultException (Opd.ofSafe s32) old s).1 = .thrown x := by
    unfold input
    rw [hst]
    show (inputInt _ _ _ _).1 = _ ∨ ∃ x, (inputInt _ _ _ _).1 = _
    unfold inputInt
    rcases hx : (inputPrep (Opd.ofSafe s32) s).extract (Opd.ofSafe s32).base id old with ⟨m, s'⟩
    dsimp only
    by_cases hf : s'.fail = true
    · rw [if_pos hf, dispatch_throw hp]; exact Or.inr ⟨_, rfl⟩
    · rw [if_neg hf]
      have hg := extract_good (V := (Opd.ofSafe s32).base) (st := id) (old := old) (s := inputPrep (Opd.ofSafe s32) s)
        (by rw [hx]; simpa using hf)
      obtain ⟨_, _, neg, n, rest, v, _, hE, hV, _⟩ := hg
      rw [hx] at hE
      obtain ⟨hv, hi⟩ := hV (fun h => by cases h)
      subst hv
      obtain ⟨h1, _⟩ := Prod.mk.inj hE
      subst h1
      rcases input_validate_cases hp hT hT.1 hi with w | ⟨w, _⟩ | ⟨⟨e, w⟩, _⟩
      · rcases inputStatic_cases hp hT with h | ⟨_, h⟩
        · rw [hst] at h; cases h
        · exact absurd w (h _ hi)
      · rw [w]; exact Or.inl rfl
      · rw [w]; exact Or.inr ⟨_, rfl⟩
  constructor
  · intro hk
    rcases C37_accepts defaultException hp _ hT old s he hf neg k rest hN hk (fun h => by cases h) with h | h
    · exact h
    · rcases out with o | ⟨x, o⟩ <;> rw [o] at h <;> cases h
  · intro hk
    rcases out with o | o
    · obtain ⟨neg', k', rest', hN', hk', _⟩ := C37_reads_partial defaultException hp _ hT (by decide) old s o
      have h1 := (C60_iread _ _ _).2 ⟨_, hN⟩
      have h2 := (C60_iread _ _ _).2 ⟨_, hN'⟩
      rw [h1] at h2
      obtain ⟨rfl, _⟩ := Prod.mk.inj (Option.some.inj h2)
      exact absurd hk' hk
    · exact o

private theorem ends_input {n : Nat} {Γ : Fin n → PTy Examples.names} {s : LState n} {i : Fin n} {r : Out Unit × Int × IStream}
    (h : inputStep (Γ i) (s.st i) s.inp = r) : Ends Γ (.input i) s r.1 { s.write i r.2.1 with inp := r.2.2 } := by
  subst h
  refine ⟨1, fun f hf => ?_⟩
  obtain ⟨g, rfl⟩ : ∃ g, f = g + 1 := ⟨f - 1, by omega⟩
  rfl

private theorem does_input {s : LState 2} {i : Fin 2} {k : Int} {neg : Bool} {rest : List Char} (he : s.inp.eof = false) (hf : s.inp.fail = false)
    (hN : NumberAt s.inp.buf neg k rest) :
    Does Γ6 (.input i) s (s32.In k) { s.write i k with inp := ⟨rest, rest.isEmpty, false⟩ } := by
  obtain ⟨h1, h2⟩ := input_number (old := s.st i) he hf hN
  have e : inputStep (Γ6 i) (s.st i) s.inp = input defaultException (Opd.ofSafe s32) (s.st i) s.inp := by
    unfold inputStep; exact if_pos rfl
  refine ⟨fun hk => ends_input (e.trans (h1 hk)), fun hk => ?_⟩
  obtain ⟨x, hx⟩ := h2 hk
  have := ends_input (Γ := Γ6) (i := i) (s := s) e
  rw [hx] at this
  exact ⟨x, _, this⟩

/-- example6.cpp: whatever two numbers the text starts with, the safe program reads and prints them if both are values of `int`;
otherwise it throws. -/
theorem C72_example6 (s : LState 2) (k l : Int) (n m : Bool) (r r' : List Char) (he : s.inp.eof = false) (hf : s.inp.fail = false)
    (h1 : NumberAt s.inp.buf n k r) (h2 : NumberAt r m l r') :
    Does Γ6 ex6 s (s32.In k ∧ s32.In l)
      { (s.write 0 k).write 1 l with inp := ⟨r', r'.isEmpty, false⟩, out := s.out ++ printInt k ++ printInt l } := by
  have hΓ : GoodVars Γ6 := by decide +kernel
  have hr : r.isEmpty = false := by
    obtain ⟨ws, sg, ds, rfl, _, hd, _⟩ := h2
    cases ds with
    | nil => exact absurd rfl hd
    | cons => simp
  refine does_iff (P := s32.In k ∧ s32.In l ∧ True ∧ True) (by simp) (does_seq (does_input he hf h1) fun p => ?_)
  refine does_seq (does_input hr rfl h2) fun q => ?_
  refine does_seq (does_output (ev_var hΓ 0 (T := safe s32) (v := k) rfl rfl p).ex rfl) fun _ => ?_
  exact does_output (ev_var hΓ 1 (T := safe s32) (v := l) rfl rfl q).ex rfl

/-- the same program without the library ends normally whatever is in the stream; if a number is not a value of `int`, it goes on with
another one -/
theorem C72_example6_builtin (s : LState 2) (hs : Ranged Γ6c s.st) :
    ∃ s', Ends Γ6c ex6 s (.ret ()) s' ∧ ∀ k, ¬ s32.In k → s'.st 0 ≠ k ∧ s'.st 1 ≠ k := by
  have o : ∀ (t : LState 2) (i : Fin 2), Ends Γ6c (.output (.var i)) t (.ret ()) { t with out := t.out ++ printInt (t.st i) } := by
    intro t i
    refine ⟨1, fun f hf => ?_⟩
    obtain ⟨g, rfl⟩ : ∃ g, f = g + 1 := ⟨f - 1, by omega⟩
    rfl
  refine ⟨_, ends_seq (ends_input (r := (.ret (), _, _)) rfl) (ends_seq (ends_input (r := (.ret (), _, _)) rfl) (ends_seq (o _ _) (o _ _))),
    fun k hk => ⟨?_, ?_⟩⟩
  · rintro rfl
    exact hk (extract_in (hs 0))
  · rintro rfl
    exact hk (extract_in (hs 1))

/-- example84.cpp: the function never fails, its results are exact. -/
theorem C72_example84 (s : LState 4) (hs : Ranged Γ84 s.st) (x y : Int) (hx : s.st 0 = x) (hy : s.st 1 = y) :
    Ends Γ84 f84 s (.ret ()) ((s.write 2 (x + y)).write 3 (x - y)) := by
  have hΓ : GoodVars Γ84 := by decide +kernel
  have h0 : -24 ≤ x ∧ x ≤ 82 := hx ▸ hs 0
  have h1 : -24 ≤ y ∧ y ≤ 82 := hy ▸ hs 1
  refine ends_seq ((does_assign careful hΓ (S := ⟨Opd.range s32 (-48) 164, some .native, some .loose_exception_policy⟩) (x := 0)
    (ex_bin (o := .ar .add) careful (ev_var hΓ 0 (T := safe_t84) (v := x) rfl hx h0).ex (ev_var hΓ 1 (T := safe_t84) (v := y) rfl hy h1).ex
    (q := .native) (e := .loose_exception_policy) (R := s32)
    (S := ⟨Opd.range s32 (-48) 164, some .native, some .loose_exception_policy⟩) (x := 0) (y := 0) (P3 := True)
    (by decide +kernel) (by decide +kernel) (fun _ _ _ => rfl) (fun _ _ => ?_)) rfl (by decide +kernel)).1
    ⟨⟨trivial, trivial, trivial⟩, ?_⟩)
    ((does_assign careful hΓ (s := s.write 2 (x + y)) (i := 3) (S := ⟨Opd.range s32 (-106) 106, some .native, some .loose_exception_policy⟩) (x := 0)
    (ex_bin (o := .ar .sub) careful (ev_var hΓ (s := (s.write 2 (x + y)).st) 0 (T := safe_t84) (v := x) rfl hx h0).ex
    (ev_var hΓ (s := (s.write 2 (x + y)).st) 1 (T := safe_t84) (v := y) rfl hy h1).ex
    (q := .native) (e := .loose_exception_policy) (R := s32)
    (S := ⟨Opd.range s32 (-106) 106, some .native, some .loose_exception_policy⟩) (x := 0) (y := 0) (P3 := True)
    (by decide +kernel) (by decide +kernel) (fun _ _ _ => rfl) (fun _ _ => ?_)) rfl (by decide +kernel)).1
    ⟨⟨trivial, trivial, trivial⟩, ?_⟩)
  · rw [fits_iff (by decide) (by simp)]
    simp [in_s32, imath] at *
    omega
  · show -48 ≤ x + y ∧ x + y ≤ 164
    omega
  · rw [fits_iff (by decide) (by simp)]
    simp [in_s32, imath] at *
    omega
  · show -106 ≤ x - y ∧ x - y ≤ 106
    omega

private theorem does_input84 {s : LState 4} {i : Fin 4} (hi : Γ84 i = safe_t84) (hs : Ranged Γ84 s.st) {k : Int} {neg : Bool}
    {rest : List Char} (he : s.inp.eof = false) (hf : s.inp.fail = false) (hN : NumberAt s.inp.buf neg k rest) :
    Does Γ84 (.input i) s (-24 ≤ k ∧ k ≤ 82) { s.write i k with inp := ⟨rest, rest.isEmpty, false⟩ } := by
  have e : inputStep (Γ84 i) (s.st i) s.inp = input looseException (Opd.range s8 (-24) 82) (s.st i) s.inp := by
    rw [hi]; unfold inputStep; exact if_pos rfl
  have ho : (Opd.range s8 (-24) 82).Has (s.st i) := by have := hs i; rwa [hi] at this
  obtain ⟨_, h, _⟩ := C90_char_outcomes looseException rfl (Opd.range s8 (-24) 82) (by decide +kernel) rfl (s.st i) s.inp
    ((C37_compiles looseException rfl (Opd.range s8 (-24) 82) (by decide +kernel) (s.st i) ho s.inp).2 ⟨0, by decide +kernel, by decide +kernel⟩)
  obtain ⟨h1, h2⟩ := h neg k rest he hf hN
  refine ⟨fun hk => ends_input (e.trans (h1 hk)), fun hk => ?_⟩
  obtain ⟨x, hx⟩ := h2 hk
  exact ⟨x, _, ends_input (r := (.thrown x, _, _)) (e.trans hx)⟩

/-- example84.cpp, with input: whatever two numbers the text starts with, if both are within the range the results are exact; otherwise
an exception is thrown. -/
theorem C72_example84_input (s : LState 4) (hs : Ranged Γ84 s.st) (k l : Int) (n m : Bool) (r r' : List Char) (he : s.inp.eof = false)
    (hf : s.inp.fail = false) (h1 : NumberAt s.inp.buf n k r) (h2 : NumberAt r m l r') :
    Does Γ84 (.seq read84 f84) s ((-24 ≤ k ∧ k ≤ 82) ∧ (-24 ≤ l ∧ l ≤ 82))
      { (((s.write 0 k).write 1 l).write 2 (k + l)).write 3 (k - l) with inp := ⟨r', r'.isEmpty, false⟩ } := by
  have hr : r.isEmpty = false := by
    obtain ⟨ws, sg, ds, rfl, _, hd, _⟩ := h2
    cases ds with
    | nil => exact absurd rfl hd
    | cons => simp
  refine does_iff (P := ((-24 ≤ k ∧ k ≤ 82) ∧ (-24 ≤ l ∧ l ≤ 82)) ∧ True) (by simp)
    (does_seq (does_seq (does_input84 rfl hs he hf h1) fun p =>
      does_input84 (s := { s.write 0 k with inp := ⟨r, r.isEmpty, false⟩ }) rfl (ranged_write hs (i := 0) p) hr rfl h2) fun p => ?_)
  refine ⟨fun _ => ?_, fun h => absurd trivial h⟩
  exact C72_example84 { (s.write 0 k).write 1 l with inp := ⟨r', r'.isEmpty, false⟩ } (ranged_write (ranged_write hs (i := 0) p.1) (i := 1) p.2) k l rfl rfl

/-! ### the values of the examples -/

private def start {n : Nat} (l : List Int) : LState n := ⟨fun i => l.getD i 0, ⟨[], false, false⟩, [], 0⟩

private instance {n : Nat} (Γ : Fin n → PTy Examples.names) (f : Fin n → Int) : Decidable (Ranged Γ f) :=
  inferInstanceAs (Decidable (∀ i, (Γ i).opd.lo ≤ f i ∧ f i ≤ (Γ i).opd.hi))

/- example1.cpp: `INT_MAX` and 2 throw; 127 and 2 throw; without the library the second gives -127; 100 and 27 are added -/
example : ∃ x s, Ends Γ1 ex1 (start [2147483647, 2, 0, 0, 0]) (.thrown x) s :=
  (C72_example1 _ (by decide) _ _ rfl rfl).2 (by decide)
example : ∃ x s, Ends Γ1 ex1 (start [127, 2, 0, 0, 0]) (.thrown x) s :=
  (C72_example1 _ (by decide) _ _ rfl rfl).2 (by decide)
example : ∃ s, Ends Γ1c ex1 (start [127, 2, 0, 0, 0]) (.ret ()) s ∧ s.st 4 ≠ 127 + 2 :=
  C72_example1_builtin _ _ _ rfl rfl (by decide) (by decide) (by decide)
example : Ends Γ1 ex1 (start [100, 27, 0, 0, 0]) (.ret ()) ((((start [100, 27, 0, 0, 0]).write 2 100).write 3 27).write 4 127) :=
  (C72_example1 _ (by decide) _ _ rfl rfl).1 (by decide)
/- example8.cpp: 2 - 127 throws -/
example : ∃ x s, Ends Γ8 ex8 (start [127, 2, 0, 0, 0]) (.thrown x) s := (C72_example8 _ (by decide) _ _ rfl rfl).2 (by decide)
/- example11.cpp: 127 + 2 is 129 -/
example : Ends Γ11 ex11 (start [127, 2, 0, 0, 0]) (.ret ())
    ((((start [127, 2, 0, 0, 0]).write 2 127).write 3 2).write 4 129) := (C72_example11 _ (by decide) _ _ rfl rfl).1 (by decide)
/- example2.cpp, example3.cpp -/
example : ∃ x s, Ends Γ2 ex2 (start [2147483647, 0]) (.thrown x) s := (C72_example2 _ (by decide) _ rfl).2 (by decide)
example : ∃ x s, Ends Γ3 ex3 (start [0, 0]) (.thrown x) s := (C72_example3 _ (by decide) _ rfl).2 (by decide)
/- example4.cpp: -1 and 1 throw, 1 and 2 print the first line -/
example : ∃ x s, Ends Γ4 ex4 (start [-1, 1, 0, 0, 0]) (.thrown x) s := (C72_example4 _ (by decide) _ _ rfl rfl).2 (by decide)
example : ∃ s, Ends Γ4 ex4 (start [1, 2, 0, 0, 0]) (.ret ()) s ∧ s.st 4 = 1 :=
  ⟨_, (C72_example4 _ (by decide) _ _ rfl rfl).1 (by decide), by decide⟩
/- example5.cpp: 36 is an index, 43 is not -/
example : ∃ s, Ends Γ5 ex5 (start [36, 0]) (.ret ()) s ∧ s.st 1 = 36 := ⟨_, (C72_example5 _ (by decide) _ rfl).1 (by decide), rfl⟩
example : ∃ x s, Ends Γ5 ex5 (start [43, 0]) (.thrown x) s := (C72_example5 _ (by decide) _ rfl).2 (by decide)
/- example6.cpp: the text of the example throws; "12 -7" is read -/
private theorem number_of {b r : List Char} {k : Int} (h : iread b = some (k, r)) : ∃ n, NumberAt b n k r := (C60_iread _ _ _).1 h
private def reading {n : Nat} (t : String) : LState n := ⟨fun _ => 0, ⟨t.toList, false, false⟩, [], 0⟩
example : ∃ x s, Ends Γ6 ex6 (reading "12317289372189 1231287389217389217893") (.thrown x) s := by
  obtain ⟨n, h1⟩ := number_of (b := "12317289372189 1231287389217389217893".toList) (r := " 1231287389217389217893".toList)
    (k := 12317289372189) (by decide +kernel)
  obtain ⟨m, h2⟩ := number_of (b := " 1231287389217389217893".toList) (r := []) (k := 1231287389217389217893) (by decide +kernel)
  exact (C72_example6 _ _ _ n m _ _ rfl rfl h1 h2).2 (by decide)
example : ∃ s, Ends Γ6 ex6 (reading "12 -7") (.ret ()) s ∧ s.st 0 = 12 ∧ s.st 1 = -7 := by
  obtain ⟨n, h1⟩ := number_of (b := "12 -7".toList) (r := " -7".toList) (k := 12) (by decide +kernel)
  obtain ⟨m, h2⟩ := number_of (b := " -7".toList) (r := []) (k := -7) (by decide +kernel)
  exact ⟨_, (C72_example6 _ _ _ n m _ _ rfl rfl h1 h2).1 (by decide), rfl, rfl⟩
/- example19.cpp: 0 is not in the range; 9 times 9 throws when the program runs; 9 + 24 -/
example : ∃ x s, Ends Γ19 ex19_assign (start [0, 9, 0, 7]) (.thrown x) s :=
  (C72_example19_assign _ (by decide) _ rfl).2 (by decide)
example : ∃ x s, Ends Γ19 ex19_times (start [9, 9, 0, 7]) (.thrown x) s :=
  (C72_example19_times _ (by decide) _ _ rfl rfl).2 (by decide)
example : ∃ s, Ends Γ19 ex19_sum (start [0, 9, 24, 7]) (.ret ()) s ∧ s.st 3 = 33 :=
  ⟨_, (C72_example19_sum _ (by decide) _ _ rfl rfl).1, by decide⟩
/- example7.cpp: 17:83 is not a time, 17:10 is -/
example : ∃ x s, Ends Γ7 ex7 (start [17, 83, 0]) (.thrown x) s := (C72_example7 _ (by decide) _ _ rfl rfl).1.2 (by decide)
example : ∃ s, Ends Γ7 ex7 (start [17, 10, 0]) (.ret ()) s ∧ s.st 2 = 1030 :=
  ⟨_, (C72_example7 _ (by decide) _ _ rfl rfl).1.1 (by decide), by decide⟩
/- example10.cpp -/
example : ∃ x s, Ends Γ10 ex10 (start [100, -100, 0, 0]) (.thrown x) s :=
  (C72_example10 _ (by decide) _ _ rfl rfl).2 (by decide)
example : ∃ x s, Ends Γ10 ex10 (start [0, -1, 0, 0]) (.thrown x) s := (C72_example10 _ (by decide) _ _ rfl rfl).2 (by decide)
example : ∃ s, Ends Γ10 ex10 (start [100, 100, 0, 0]) (.ret ()) s ∧ s.out = "10000".toList :=
  ⟨_, (C72_example10 _ (by decide) _ _ rfl rfl).1 (by decide), by decide +kernel⟩
/- example13.cpp -/
example : ∃ x s, Ends Γ13 ex13 (start [1, 0, 0, 0]) (.thrown x) s := (C72_example13 _ (by decide) _ _ rfl rfl).2 (by decide)
example : ∃ s, Ends Γ13 ex13 (start [-7, 2, 0, 0]) (.ret ()) s ∧ s.out = ['-', '3'] :=
  ⟨_, (C72_example13 _ (by decide) _ _ rfl rfl).1 (by decide), by decide +kernel⟩
/- example16.cpp: 97 is passed, 2^31 is not -/
example : ∃ s, Ends Γ16 ex16 (start [97, 0, 0]) (.ret ()) s ∧ s.st 2 = 97 :=
  ⟨_, (C72_example16 _ (by decide) _ rfl).1 (by decide), rfl⟩
example : ∃ x s, Ends Γ16 ex16 (start [2147483648, 0, 0]) (.thrown x) s := (C72_example16 _ (by decide) _ rfl).2 (by decide)
/- example17.cpp, example18.cpp with the value 97 of the examples -/
example : ∃ s, Ends Γ17 ex17 (start [97, 0]) (.fault .illFormed) s := C72_example17 _ (by decide)
example : ∃ s, Ends Γ18 (ex18 s8 97) (start [0]) (.ret ()) s ∧ s.st 0 = 97 :=
  ⟨_, C72_example18 _ s8 (by decide) 97 (by decide) (by decide), rfl⟩
/- example83.cpp with 10 and 67, and with 10 and 73 -/
example : ∃ s, Ends Γ83 (ex83 10 67) (start [0]) (.ret ()) s ∧ s.st 0 = 77 :=
  ⟨_, (C72_example83 _ 10 67 (by decide) (by decide)).1 (by decide), rfl⟩
example : Ends Γ83 (ex83 10 73) (start [0]) (.fault .illFormed) (start [0]) :=
  (C72_example83 _ 10 73 (by decide) (by decide)).2 (by decide)
/- example81.cpp, example82.cpp with `INT_MAX` and 2; example84.cpp -/
example : ∃ s, Ends Γ81 ex81 (start [2147483647, 2, 0]) (.fault .illFormed) s := C72_example81 _ (by decide)
example : ∃ s, Ends Γ82 ex82 (start [2147483647, 2, 0]) (.ret ()) s ∧ s.st 2 = 2147483649 :=
  ⟨_, C72_example82 _ (by decide) _ _ rfl rfl, by decide⟩
example : ∃ s, Ends Γ84 f84 (start [82, -24, 0, 0]) (.ret ()) s ∧ s.st 2 = 58 ∧ s.st 3 = 106 :=
  ⟨_, C72_example84 _ (by decide) _ _ rfl rfl, by decide⟩

/- the inputs of example84.cpp -/
example : ∃ x s, Ends Γ84 (.seq read84 f84) (reading "123 125") (.thrown x) s := by
  obtain ⟨n, h1⟩ := number_of (b := "123 125".toList) (r := " 125".toList) (k := 123) (by decide +kernel)
  obtain ⟨m, h2⟩ := number_of (b := " 125".toList) (r := []) (k := 125) (by decide +kernel)
  exact (C72_example84_input _ (by decide +kernel) _ _ n m _ _ rfl rfl h1 h2).2 (by decide)
example : ∃ s, Ends Γ84 (.seq read84 f84) (reading "-24 82") (.ret ()) s ∧ s.st 2 = 58 ∧ s.st 3 = -106 := by
  obtain ⟨n, h1⟩ := number_of (b := "-24 82".toList) (r := " 82".toList) (k := -24) (by decide +kernel)
  obtain ⟨m, h2⟩ := number_of (b := " 82".toList) (r := []) (k := 82) (by decide +kernel)
  exact ⟨_, (C72_example84_input _ (by decide +kernel) _ _ n m _ _ rfl rfl h1 h2).1 (by decide), by decide⟩

/-- example20.cpp: for unsigned numbers the larger minus the smaller is a success; the smaller minus the larger is below the range, and
the sum of two such results also is. -/
theorem C72_example20 (R : ITy) (hR : R.signed = false) (x y : Int) (hx : R.In x) (hy : R.In y) (h : y < x) :
    ex20 R x y = .ret (.ok (x - y), .err .negative_overflow_error, .err .negative_overflow_error) := by
  have h0 : R.min = 0 := by unfold ITy.min; rw [hR]; rfl
  obtain ⟨h1, h2⟩ := hx
  obtain ⟨h3, h4⟩ := hy
  have e1 : crSub R (.ok x) (.ok y) = .ret (.ok (x - y)) :=
    (C03_subtract R x y ⟨h1, h2⟩ ⟨h3, h4⟩).trans (by unfold exactOr; rw [if_neg (by omega), if_neg (by omega)])
  have e2 : crSub R (.ok y) (.ok x) = .ret (.err .negative_overflow_error) :=
    (C03_subtract R y x ⟨h3, h4⟩ ⟨h1, h2⟩).trans (by unfold exactOr; rw [if_neg (by omega), if_pos (by omega)])
  unfold ex20
  rw [e1, ret_bind, e2, ret_bind]
  rfl

/- the values of the example -/
example : ex20 ⟨false, 2⟩ 4 3 = .ret (.ok 1, .err .negative_overflow_error, .err .negative_overflow_error) :=
  C72_example20 _ rfl 4 3 (by decide) (by decide) (by decide)

end Verif.Props
