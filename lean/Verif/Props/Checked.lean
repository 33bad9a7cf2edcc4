import Verif.Proofs.Utility2

/-!
Properties C01-C10 and C44: the checked operations on built-in integers (`checked::` functions).
All of them hold for every machine `[Arch]`. Functions are total on `Out`, so `= .ret r` also says:
no undefined behaviour, no assertion failure, no exception.
-/

namespace Verif.Props
open Spec
section
variable [Arch]

/-! ### C01 cast -/

/-- C01 for `checked::cast<R>(t)`. -/
theorem C01_checkedCast (R T : ITy) (t : Int) (ht : T.In t) :
    ∃ r, checkedCast R T t = .ret r ∧
      (∀ v, r = .ok v ↔ v = t ∧ R.In t) ∧
      (R.max < t ↔ r = .err .positive_overflow_error) ∧
      (t < R.min ↔ r = .err .negative_overflow_error ∨ r = .err .domain_error) := by
  unfold checkedCast
  rw [cast_eq ht R.in_min R.in_max]
  have hz := R.min_nonpos
  have hm := R.min_le_max
  have hIn : R.In t ↔ R.min ≤ t ∧ t ≤ R.max := Iff.rfl
  have hu : T.signed = false → 0 ≤ t := fun h => ht.nonneg h
  split_ifs with h1 h2 h3 h4
  · refine ⟨_, rfl, ?_, ?_, ?_⟩ <;> simp [hIn] <;> omega
  · refine ⟨_, rfl, ?_, ?_, ?_⟩ <;> simp [hIn] <;> omega
  · refine ⟨_, rfl, ?_, ?_, ?_⟩ <;> simp [hIn] <;> omega
  · have := hu (by simpa using h4); omega
  · refine ⟨_, rfl, ?_, ?_, ?_⟩ <;> simp [hIn, eq_comm] <;> omega

example : @checkedCast lp64 u8 i32 200 = .ret (.ok 200) := by decide
example : @checkedCast lp64 u8 i32 256 = .ret (.err .positive_overflow_error) := by decide
example : @checkedCast lp64 u8 i32 (-1) = .ret (.err .domain_error) := by decide
example : @checkedCast lp64 i8 i32 (-129) = .ret (.err .negative_overflow_error) := by decide

/-- C01 for the bounded cast behind safe types. Everything but one clause of C01 holds: the error reported
for an unsigned source below the bounds is `positive_overflow_error` (see the refutation below), so the
"too small" clause is restricted to signed source types. -/
theorem C01_cast_partial (R T : ITy) (mn mx t : Int) (hmn : R.In mn) (hmx : R.In mx) (hle : mn ≤ mx)
    (ht : T.In t) :
    ∃ r, cast R mn mx T make t = .ret r ∧
      (∀ v, r = .ok v ↔ v = t ∧ mn ≤ t ∧ t ≤ mx) ∧
      (mx < t → r = .err .positive_overflow_error) ∧
      (T.signed = true → (t < mn ↔ r = .err .negative_overflow_error ∨ r = .err .domain_error)) := by
  rw [cast_eq ht hmn hmx]
  have hu : T.signed = false → 0 ≤ t := fun h => ht.nonneg h
  split_ifs with h1 h2 h3 h4
  · refine ⟨_, rfl, ?_, ?_, ?_⟩ <;> simp <;> omega
  · refine ⟨_, rfl, ?_, ?_, ?_⟩ <;> simp <;> omega
  · refine ⟨_, rfl, ?_, ?_, ?_⟩ <;> simp <;> omega
  · refine ⟨_, rfl, ?_, ?_, ?_⟩ <;> simp [h4] <;> omega
  · refine ⟨_, rfl, fun v => ?_, ?_, ?_⟩
    · simp only [CR.ok.injEq]; omega
    · omega
    · simp; omega

example : @cast lp64 u8 10 20 i32 make 15 = .ret (.ok 15) := by decide
example : @cast lp64 u8 10 20 i32 make 9 = .ret (.err .domain_error) := by decide

omit [Arch] in
/-- The full C01 fails for bounded casts from unsigned types: 5 is below [10, 20] but the error says
"positive overflow". -/
theorem C01_cast_refuted :
    @cast lp64 u8 10 20 u8 make 5 = .ret (.err .positive_overflow_error) := by decide

/-! ### C02 - C05 -/

/-- C02 -/
theorem C02_add (R : ITy) (t u : Int) (ht : R.In t) (hu : R.In u) :
    add R make t u = .ret (exactOr R.min R.max (t + u)) := by
  rw [add_eq ht hu]; unfold exactOr; split_ifs <;> rfl

example : @add lp64 i8 make 100 27 = .ret (.ok 127) := by decide
example : @add lp64 i8 make 100 28 = .ret (.err .positive_overflow_error) := by decide
example : @add lp64 i8 make (-100) (-29) = .ret (.err .negative_overflow_error) := by decide
example : @add lp64 u64 make (2^64 - 1) 1 = .ret (.err .positive_overflow_error) := by decide

/-- C03 -/
theorem C03_subtract (R : ITy) (t u : Int) (ht : R.In t) (hu : R.In u) :
    subtract R make t u = .ret (exactOr R.min R.max (t - u)) := by
  rw [subtract_eq ht hu]; unfold exactOr; split_ifs <;> rfl

example : @subtract lp64 u32 make 3 4 = .ret (.err .negative_overflow_error) := by decide
example : @subtract lp64 i64 make (-2^63) (-1) = .ret (.ok (-2^63 + 1)) := by decide

/-- C04 -/
theorem C04_minus (R : ITy) (t : Int) (ht : R.In t) :
    minus R make t = .ret (exactOr R.min R.max (-t)) := by
  rw [minus_eq ht]; unfold exactOr; split_ifs <;> rfl

example : @minus lp64 i32 make (-2^31) = .ret (.err .positive_overflow_error) := by decide
example : @minus lp64 u16 make 7 = .ret (.err .negative_overflow_error) := by decide
example : @minus lp64 i16 make 7 = .ret (.ok (-7)) := by decide

/-- C05 -/
theorem C05_multiply (R : ITy) (hR : R.Ok) (t u : Int) (ht : R.In t) (hu : R.In u) :
    multiply R make t u = .ret (exactOr R.min R.max (t * u)) := by
  rw [multiply_eq hR ht hu]; unfold exactOr; split_ifs <;> rfl

example : @multiply lp64 i64 make (-2^62) 2 = .ret (.ok (-2^63)) := by decide
example : @multiply lp64 i64 make (-2^62) (-2) = .ret (.err .positive_overflow_error) := by decide
example : @multiply lp64 u64 make (2^32) (2^32) = .ret (.err .positive_overflow_error) := by decide
example : @multiply lp64 u16 make 65535 65535 = .ret (.err .positive_overflow_error) := by decide

/-! ### C06, C07 -/

/-- C06. `t.tdiv u` is the quotient truncated towards zero. -/
theorem C06_divide (R : ITy) (t u : Int) (ht : R.In t) (hu : R.In u) :
    divide R make t u =
      .ret (if u = 0 then .err .domain_error
        else if R.signed = true ∧ t = R.min ∧ u = -1 then .err .positive_overflow_error
        else .ok (t.tdiv u)) := by
  rw [divide_eq ht hu]
  have e := ITy.min_eq R
  by_cases h0 : u = 0
  · rw [if_pos h0, if_pos h0]; rfl
  rw [if_neg h0, if_neg h0]
  by_cases hb : R.signed = true ∧ t = R.min ∧ u = -1
  · obtain ⟨hs, rfl, rfl⟩ := hb
    rw [hs, if_pos rfl] at e
    rw [if_pos (by rw [Int.tdiv_neg, Int.tdiv_one]; omega), if_pos ⟨hs, rfl, rfl⟩]; rfl
  · have := (tdiv_in ht hu h0 (fun h => hb ⟨h.1, h.2.2, h.2.1⟩)).2
    rw [if_neg (by omega), if_neg hb]

/-- the quotient returned is representable -/
theorem C06_divide_in (R : ITy) (t u v : Int) (ht : R.In t) (hu : R.In u)
    (h : divide R make t u = .ret (.ok v)) : R.In v := by
  rw [C06_divide R t u ht hu] at h
  split_ifs at h with h0 hb
  · simp at h
  · simp at h
  · simp at h
    exact h ▸ tdiv_in ht hu h0 (fun h => hb ⟨h.1, h.2.2, h.2.1⟩)

example : @divide lp64 i32 make (-7) 2 = .ret (.ok (-3)) := by decide
example : @divide lp64 i8 make (-128) (-1) = .ret (.err .positive_overflow_error) := by decide
example : @divide lp64 u8 make 7 0 = .ret (.err .domain_error) := by decide

/-- C07, except for the single pair (minimum, minimum) of a signed type, see the refutation. -/
theorem C07_modulus_partial (R : ITy) (t u : Int) (ht : R.In t) (hu : R.In u)
    (hne : ¬ (R.signed = true ∧ t = R.min ∧ u = R.min)) :
    modulus R make t u = .ret (if u = 0 then .err .domain_error else .ok (t.tmod u)) := by
  rw [modulus_eq ht hu]
  split_ifs <;> rfl

/-- C07, no undefined behaviour and domain_error exactly for zero: all pairs. -/
theorem C07_modulus_defined (R : ITy) (t u : Int) (ht : R.In t) (hu : R.In u) :
    ∃ r, modulus R make t u = .ret r ∧ (u = 0 ↔ r = .err .domain_error) ∧ (u ≠ 0 → ∃ v, r = .ok v ∧ R.In v) := by
  rw [modulus_eq ht hu]
  split_ifs with h1 h2
  · exact ⟨_, rfl, by simp [h1], by simp [h1]⟩
  · exact ⟨_, rfl, by simp [h1], fun _ => ⟨_, rfl, ht⟩⟩
  · exact ⟨_, rfl, by simp [h1], fun _ => ⟨_, rfl, tmod_in ht⟩⟩

example : @modulus lp64 i32 make (-7) 3 = .ret (.ok (-1)) := by decide
example : @modulus lp64 i32 make (-2^31) (-1) = .ret (.ok 0) := by decide
example : @modulus lp64 i32 make 5 (-2^31) = .ret (.ok 5) := by decide

/-- The full C07 fails: for every signed type, minimum % minimum returns the minimum instead of 0. -/
theorem C07_modulus_refuted (R : ITy) (hs : R.signed = true) :
    modulus R make R.min R.min = .ret (.ok R.min) ∧ R.min.tmod R.min = 0 ∧ R.min ≠ 0 := by
  have e := ITy.min_eq R
  have := R.max_ge
  rw [hs, if_pos rfl] at e
  refine ⟨?_, by simp, by omega⟩
  rw [modulus_eq R.in_min R.in_min, if_neg (by omega), if_pos ⟨hs, rfl, rfl⟩]

example : @modulus lp64 i8 make (-128) (-128) = .ret (.ok (-128)) := by decide

/-! ### C08, C09 -/

/-- C08 -/
theorem C08_leftShift (R : ITy) (hR : R.Ok) (t u : Int) (ht : R.In t) (hu : R.In u) :
    ∃ r, leftShift R make t u = .ret r ∧
      (∀ v, r = .ok v → 0 ≤ u ∧ v = t * 2 ^ u.toNat ∧ R.In v) ∧
      (u < 0 → ∃ e, r = .err e) ∧
      (0 < u → t < 0 → ∃ e, r = .err e) ∧
      (0 ≤ u → ¬ R.In (t * 2 ^ u.toNat) → ∃ e, r = .err e) ∧
      (0 ≤ u → 0 < t → R.In (t * 2 ^ u.toNat) → r = .ok (t * 2 ^ u.toNat)) := by
  rw [leftShift_eq hR ht hu]
  have hz := R.min_nonpos
  split_ifs with h1 h2 h3 h4 h5
  · subst h1
    refine ⟨_, rfl, ?_, by simp, by simp, ?_, by simp⟩
    · intro v hv; simp at hv; subst hv; simp [ht]
    · simp [ht]
  · exact ⟨_, rfl, by simp, by simp, by simp, by simp, by omega⟩
  · refine ⟨_, rfl, by simp, by simp, by simp, by simp, ?_⟩
    intro _ h0 hin
    exfalso
    have h6 := two_pow_le (show R.digits ≤ u.toNat by omega)
    have h7 : 1 * 2 ^ u.toNat ≤ t * 2 ^ u.toNat :=
      Int.mul_le_mul_of_nonneg_right (by omega) (Int.le_of_lt (two_pow_pos _))
    have h8 := hin.2
    unfold ITy.max at h8
    omega
  · exact ⟨_, rfl, by simp, by simp, by simp, by simp, by omega⟩
  · refine ⟨_, rfl, by simp, by simp, by simp, by simp, ?_⟩
    intro _ h0 hin
    exfalso
    have h6 := shl_overflows (d := R.digits) h0 (by omega) h5
    have h8 := hin.2
    unfold ITy.max at h8
    omega
  · have h6 := shl_fits (d := R.digits) (show 0 ≤ t by omega) (show 0 ≤ u by omega) (by omega)
    have hp : 0 ≤ t * 2 ^ u.toNat := Int.mul_nonneg (by omega) (Int.le_of_lt (two_pow_pos _))
    have hin : R.In (t * 2 ^ u.toNat) := ⟨by omega, by unfold ITy.max; omega⟩
    refine ⟨_, rfl, ?_, by omega, by omega, fun _ h => absurd hin h, by simp⟩
    intro v hv; simp at hv; subst hv; exact ⟨by omega, rfl, hin⟩

example : @leftShift lp64 i8 make 5 4 = .ret (.ok 80) := by decide
example : @leftShift lp64 i8 make 5 5 = .ret (.err .shift_too_large) := by decide
example : @leftShift lp64 u64 make 1 63 = .ret (.ok (2^63)) := by decide
example : @leftShift lp64 i32 make (-1) 1 = .ret (.err .negative_shift) := by decide

/-- C09, except for one shift count: an unsigned type at least as wide as `int` shifted by exactly its width.
There the code passes its own test and then executes an undefined shift (next theorem). -/
theorem C09_rightShift_partial (R : ITy) (hR : R.Ok) (t u : Int) (ht : R.In t) (hu : R.In u)
    (hne : ¬ (R.signed = false ∧ Arch.intLg ≤ R.lg ∧ u = R.bits)) :
    ∃ r, rightShift R make t u = .ret r ∧
      (∀ v, r = .ok v → 0 ≤ u ∧ v = t / 2 ^ u.toNat ∧ R.In v) ∧
      (u < 0 → ∃ e, r = .err e) ∧
      (t < 0 → ∃ e, r = .err e) ∧
      ((R.bits : Int) ≤ u → (∃ e, r = .err e) ∨ (R.signed = false ∧ R.lg < Arch.intLg ∧ u = R.bits)) ∧
      (0 ≤ u → u < R.bits → 0 ≤ t → r = .ok (t / 2 ^ u.toNat)) := by
  rw [rightShift_eq hR ht hu]
  have hd : R.signed = true → R.digits + 1 = R.bits := ITy.digits_signed
  have hd' : R.signed = false → R.digits = R.bits := ITy.digits_unsigned
  have hd2 : R.digits ≤ R.bits ∧ R.bits ≤ R.digits + 1 := by
    rcases hs : R.signed with _ | _
    · have := hd' hs; omega
    · have := hd hs; omega
  split_ifs with h1 h2 h3
  · exact ⟨_, rfl, by simp, by simp, by simp, by simp, by omega⟩
  · exact ⟨_, rfl, by simp, by simp, by simp, by simp, by omega⟩
  · exact ⟨_, rfl, by simp, by simp, by simp, by simp, by omega⟩
  · refine ⟨_, rfl, ?_, by omega, by omega, ?_, by simp⟩
    · intro v hv; simp at hv; subst hv
      exact ⟨by omega, rfl, shr_in _ ht (by omega)⟩
    · intro hb
      right
      rcases hs : R.signed with _ | _
      · refine ⟨rfl, ?_, by have := hd' hs; omega⟩
        by_contra hl
        exact hne ⟨hs, by omega, by have := hd' hs; omega⟩
      · have := hd hs; omega

/-- In the remaining case of the previous theorem (narrow unsigned types) the value returned, 0, is right. -/
theorem C09_narrow_full_shift (R : ITy) (hR : R.Ok) (t : Int) (ht : R.In t) (hs : R.signed = false)
    (hl : R.lg < Arch.intLg) : rightShift R make t R.bits = .ret (.ok 0) := by
  have hb := ok_bits hR
  have h0 := ht.nonneg hs
  have hin : R.In R.bits := by
    have h8 := R.bits_pos
    refine ⟨by have := R.min_nonpos; omega, ?_⟩
    unfold ITy.max; rw [ITy.digits_unsigned hs]
    have : R.bits < 2 ^ R.bits := Nat.lt_two_pow_self
    zify at this; omega
  rw [rightShift_eq hR ht hin, if_neg (by omega), if_neg (by rw [ITy.digits_unsigned hs]; omega),
    if_neg (by omega), if_neg (by omega)]
  congr 2
  have := ht.2
  unfold ITy.max at this; rw [ITy.digits_unsigned hs] at this
  simp only [Int.toNat_natCast]
  exact Int.ediv_eq_zero_of_lt h0 (by omega)

/-- The full C09 fails: `checked::right_shift(t, 32)` on a 32 bit `unsigned int` is undefined behaviour. -/
theorem C09_rightShift_refuted (R : ITy) (hR : R.Ok) (hs : R.signed = false) (hl : Arch.intLg ≤ R.lg)
    (t : Int) (ht : R.In t) : rightShift R make t R.bits = .fault .ub := by
  have hb := ok_bits hR
  have h0 := ht.nonneg hs
  have hin : R.In R.bits := by
    have h8 := R.bits_pos
    refine ⟨by have := R.min_nonpos; omega, ?_⟩
    unfold ITy.max; rw [ITy.digits_unsigned hs]
    have : R.bits < 2 ^ R.bits := Nat.lt_two_pow_self
    zify at this; omega
  rw [rightShift_eq hR ht hin, if_neg (by omega), if_neg (by rw [ITy.digits_unsigned hs]; omega),
    if_neg (by omega), if_pos ⟨hs, hl, rfl⟩]

example : @rightShift lp64 u32 make 1000 32 = .fault .ub := by decide
example : @rightShift lp64 u32 make 1000 3 = .ret (.ok 125) := by decide
example : @rightShift lp64 i64 make 1000 63 = .ret (.ok 0) := by decide
example : @rightShift lp64 u32 make 1000 33 = .ret (.err .shift_too_large) := by decide
example : @rightShift lp64 i16 make (-1) 1 = .ret (.err .negative_value_shift) := by decide

/-! ### C10 -/

/-- C10 -/
theorem C10_bitwise (R : ITy) (hR : R.Ok) (t u : Int) (ht : R.In t) (hu : R.In u) :
    (∃ v, bitwiseOr R make t u = .ret (.ok v) ∧ R.In v ∧ ∀ i, bit v i = (bit t i || bit u i)) ∧
    (∃ v, bitwiseAnd R make t u = .ret (.ok v) ∧ R.In v ∧ ∀ i, bit v i = (bit t i && bit u i)) ∧
    (∃ v, bitwiseXor R make t u = .ret (.ok v) ∧ R.In v ∧ ∀ i, bit v i = (bit t i ^^ bit u i)) ∧
    (∃ v, bitwiseNot R make t = .ret (.ok v) ∧ R.In v ∧ ∀ i < R.bits, bit v i = !bit t i) := by
  refine ⟨⟨_, bitwiseOr_eq hR ht hu, conv_in _ _, bit_conv_cOr ht hu⟩,
    ⟨_, bitwiseAnd_eq hR ht hu, conv_in _ _, bit_conv_cAnd ht hu⟩,
    ⟨_, bitwiseXor_eq hR ht hu, conv_in _ _, bit_conv_cXor ht hu⟩,
    ⟨_, bitwiseNot_eq hR ht, conv_in _ _, fun i hi => ?_⟩⟩
  rw [bit_conv, if_pos hi, bit_cNot ht hi]

omit [Arch] in
/-- The bits determine the value, so C10 leaves no freedom. -/
theorem C10_bits_determine (x y : Int) (h : ∀ i, bit x i = bit y i) : x = y := bit_ext h

/-- C10 for `bitwise_not` on signed types: the value is `-t - 1`; on unsigned types `max - t`. -/
theorem C10_not_value (R : ITy) (hR : R.Ok) (t : Int) (ht : R.In t) :
    bitwiseNot R make t = .ret (.ok (if R.signed then -t - 1 else R.max - t)) := by
  rw [bitwiseNot_eq hR ht]
  congr 2
  have e := ITy.min_eq R
  have h1 := ht.1; have h2 := ht.2
  rcases hs : R.signed with _ | _
  · have h0 := ht.nonneg hs
    rw [hs] at e
    simp only [Bool.false_eq_true, if_false] at e ⊢
    have hin : R.In (R.max - t) := ⟨by omega, by omega⟩
    apply bit_ext
    intro i
    rw [bit_conv]
    split
    · rename_i hi
      rw [cNot_eq ht, bit_congr (w := (promote R).bits) (Nat.lt_of_lt_of_le hi (ITy.bits_le (promote_lg R)))
        (conv_congr _ _)]
      refine bit_congr hi ⟨-1, ?_⟩
      unfold ITy.max; rw [ITy.digits_unsigned hs]; ring
    · rename_i hi
      rw [bit_high hin (by rw [ITy.digits_unsigned hs]; omega), hs]; simp
  · rw [hs, if_pos rfl] at e
    simp only [if_true]
    rw [cNot_signed hs ht, conv_of_in ⟨by omega, by omega⟩]

example : @bitwiseXor lp64 i8 make (-1) 5 = .ret (.ok (-6)) := by decide
example : @bitwiseOr lp64 u16 make 0x0f00 0x00f0 = .ret (.ok 0x0ff0) := by decide
example : @bitwiseNot lp64 u8 make 5 = .ret (.ok 250) := by decide

/-! ### C44 -/

/-- C44 -/
theorem C44_cast_roundtrip (R T : ITy) (t v : Int) (ht : T.In t)
    (h : checkedCast R T t = .ret (.ok v)) : checkedCast T R v = .ret (.ok t) := by
  obtain ⟨r, e, h1, -⟩ := C01_checkedCast R T t ht
  rw [e] at h
  simp only [Out.ret.injEq] at h
  obtain ⟨rfl, hR⟩ := (h1 v).mp h
  obtain ⟨r', e', h1', -⟩ := C01_checkedCast T R v hR
  rw [e', (h1' v).mpr ⟨rfl, ht⟩]

/-- C44, widening -/
theorem C44_cast_widen (R T : ITy) (hmin : R.min ≤ T.min) (hmax : T.max ≤ R.max) (t : Int) (ht : T.In t) :
    checkedCast R T t = .ret (.ok t) := by
  obtain ⟨r, e, h1, -⟩ := C01_checkedCast R T t ht
  rw [e, (h1 t).mpr ⟨rfl, ht.mono hmin hmax⟩]

example : i32.In (-5) ∧ @checkedCast lp64 i8 i32 (-5) = .ret (.ok (-5)) := by decide
example : i64.min ≤ u32.min ∧ u32.max ≤ i64.max := by decide

end
end Verif.Props
