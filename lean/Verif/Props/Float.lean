import Verif.FloatSpec
import Verif.Proofs.Checked

/-!
Property C86: casts of floating point values to integers, safe integers from floating point values, and the default comparisons.
-/

namespace Verif.Props
open Spec

private theorem tdiv_whole (m : Int) (d : Nat) : m.tdiv d = wholePart ((m : ℚ) / (d : ℚ)) := by
  rcases Nat.eq_zero_or_pos d with h0 | hd
  · subst h0; simp [wholePart]
  have hq : (0 : ℚ) < (d : ℚ) := by exact_mod_cast hd
  unfold wholePart
  rcases Int.lt_or_le m 0 with hm | hm
  · have : ¬ (0 : ℚ) ≤ (m : ℚ) / d := by
      rw [not_le]; exact div_neg_of_neg_of_pos (by exact_mod_cast hm) hq
    rw [if_neg this, Rat.ceil_intCast_div_natCast]
    obtain ⟨n, rfl⟩ : ∃ n : Int, m = -n := ⟨-m, by omega⟩
    rw [Int.neg_tdiv, Int.tdiv_eq_ediv_of_nonneg (by omega), Int.neg_neg]
  · have : (0 : ℚ) ≤ (m : ℚ) / d := div_nonneg (by exact_mod_cast hm) hq.le
    rw [if_pos this, Int.tdiv_eq_ediv_of_nonneg hm, Rat.floor_intCast_div_natCast]

private theorem whole_int (n : Int) : wholePart (n : ℚ) = n := by
  unfold wholePart; split <;> simp

private theorem trunc_num (m e : Int) : (FVal.num m e).trunc = some (wholePart ((m : ℚ) * (2 : ℚ) ^ e)) := by
  unfold FVal.trunc
  dsimp only
  congr 1
  split
  · next h =>
    obtain ⟨n, rfl⟩ := Int.eq_ofNat_of_zero_le h
    rw [show ((m : ℚ) * (2 : ℚ) ^ ((n : Int))) = ((m * 2 ^ n : Int) : ℚ) by push_cast; rw [zpow_natCast], whole_int]
    rfl
  · next h =>
    obtain ⟨n, hn⟩ := Int.eq_ofNat_of_zero_le (show 0 ≤ -e by omega)
    have : e = -(n : Int) := by omega
    subst this
    rw [show ((m : ℚ) * (2 : ℚ) ^ (-(n : Int))) = (m : ℚ) / ((2 ^ n : Nat) : ℚ) by
      rw [zpow_neg, zpow_natCast]; push_cast; rfl, ← tdiv_whole]
    simp

section
variable [Arch]

/-- Exactly what the cast does: it drops the fraction, without report; if the integer part does not fit, and for infinities and NaN,
the behaviour is undefined. -/
theorem C86_cast (R : ITy) (x : FVal) :
    floatCast R x = match number x with
      | some q => if R.In (wholePart q) then .ret (.ok (wholePart q)) else .fault .ub
      | none => .fault .ub := by
  unfold floatCast cFloatToInt
  cases x with
  | num m e =>
    rw [trunc_num]
    dsimp only [number]
    split <;> rfl
  | inf b => rfl
  | nan => rfl

/-- An integer that fits is kept. -/
theorem C86_exact_partial (R : ITy) (x : FVal) (n : Int) (hx : number x = some (n : ℚ)) (hn : R.In n) :
    floatCast R x = .ret (.ok n) := by
  rw [C86_cast, hx]
  dsimp only
  rw [whole_int, if_pos hn]

/-- No error is ever reported. -/
theorem C86_silent (R : ITy) (x : FVal) (e : Err) : floatCast R x ≠ .ret (.err e) := by
  rw [C86_cast]
  split
  · split <;> exact nofun
  · exact nofun

/-- A safe integer cannot be made from a floating point value: if the greatest value of the floating point type is beyond the
stored type, which holds for the floating point types of IEEE 754 and all integer types of at most 64 bits, the program does
not compile, whatever the value. -/
theorem C86_construct (S : Opd) (F : FTy) (x : FVal) (q : ℚ) (hq : number F.max = some q) (hbig : (S.base.max : ℚ) + 1 ≤ q) :
    constructFloat S F x = .fault .illFormed := by
  have hu : floatCast S.base F.max = .fault .ub := by
    rw [C86_cast, hq]
    dsimp only
    have h0 : (0 : ℚ) ≤ q := by
      have : (0 : Int) ≤ S.base.max + 1 := by have := S.base.max_ge; omega
      have : (0 : ℚ) ≤ ((S.base.max + 1 : Int) : ℚ) := by exact_mod_cast this
      push_cast at this
      exact this.trans hbig
    rw [if_neg]
    intro h
    have h2 := h.2
    unfold wholePart at h2
    rw [if_pos h0] at h2
    have : S.base.max + 1 ≤ ⌊q⌋ := Int.le_floor.2 (by push_cast; exact hbig)
    omega
  have hl : ∃ o, floatCast S.base F.min = o ∧ (∀ c, o ≠ .ret (.err c)) ∧ ∀ e, o ≠ .thrown e := by
    refine ⟨_, rfl, C86_silent _ _, fun e => ?_⟩
    rw [C86_cast]
    split
    · split <;> exact nofun
    · exact nofun
  obtain ⟨o, e1, _, h2⟩ := hl
  unfold constructFloat
  rw [e1, hu]
  rcases o with a | e | f
  · rfl
  · exact absurd rfl (h2 e)
  · rfl

end

/-- the ends of a floating point type: the largest value is one unit in the last place below `2 ^ max_exponent`, the smallest normal
one is `2 ^ (2 - max_exponent)` -/
theorem C86_ends (F : FTy) : ∃ x y, number F.max = some x ∧ number F.min = some y ∧
    x + (2 : ℚ) ^ ((F.maxExp : Int) - F.digits) = 2 ^ F.maxExp ∧ y * 2 ^ F.maxExp = 4 := by
  refine ⟨_, _, rfl, rfl, ?_, ?_⟩
  · have h2 : (2 : ℚ) ≠ 0 := by norm_num
    rw [zpow_sub₀ h2, zpow_natCast, zpow_natCast]
    push_cast
    field_simp
    ring
  · have h2 : (2 : ℚ) ≠ 0 := by norm_num
    rw [zpow_sub₀ h2, zpow_natCast]
    push_cast
    field_simp

/-- the types `float` and `double` of IEEE 754 meet the hypothesis of `C86_construct` for every integer type of at most 64 bits -/
theorem C86_ieee (R : ITy) (h : R.lg ≤ 3) (F : FTy) (hF : F = binary32 ∨ F = binary64) :
    ∃ q, number F.max = some q ∧ (R.max : ℚ) + 1 ≤ q := by
  have hd : R.digits ≤ 64 := by
    unfold ITy.digits ITy.bits
    have : 2 ^ R.lg ≤ 2 ^ 3 := Nat.pow_le_pow_right (by decide) h
    split <;> omega
  have hm : R.max + 1 ≤ 2 ^ 64 := by
    have : (2 : Int) ^ R.digits ≤ 2 ^ 64 := by exact_mod_cast Nat.pow_le_pow_right (by decide) hd
    unfold ITy.max; omega
  have hm' : (R.max : ℚ) + 1 ≤ (2 : ℚ) ^ 64 := by exact_mod_cast hm
  rcases hF with rfl | rfl
  · refine ⟨_, rfl, hm'.trans ?_⟩
    show (2 : ℚ) ^ 64 ≤ ((2 ^ 24 - 1 : Int) : ℚ) * (2 : ℚ) ^ (((104 : Nat) : Int))
    rw [zpow_natCast]; norm_num
  · refine ⟨_, rfl, hm'.trans ?_⟩
    show (2 : ℚ) ^ 64 ≤ ((2 ^ 53 - 1 : Int) : ℚ) * (2 : ℚ) ^ (((971 : Nat) : Int))
    rw [zpow_natCast]
    have h1 : (2 : ℚ) ^ 64 ≤ 2 ^ 971 := pow_le_pow_right₀ (by norm_num) (by norm_num)
    have h2 : (1 : ℚ) ≤ ((2 ^ 53 - 1 : Int) : ℚ) := by norm_num
    calc (2 : ℚ) ^ 64 ≤ 2 ^ 971 := h1
      _ = 1 * 2 ^ 971 := (one_mul _).symm
      _ ≤ _ := mul_le_mul_of_nonneg_right h2 (by positivity)

/-- The default `less_than` and `greater_than` answer the question asked. -/
theorem C86_default_order {α : Type} [LinearOrder α] (t u : α) :
    (defaultLess t u = T3.tt ↔ t < u) ∧ (defaultLess t u = T3.ff ↔ u ≤ t) ∧
    (defaultGreater t u = T3.tt ↔ u < t) ∧ (defaultGreater t u = T3.ff ↔ t ≤ u) := by
  unfold defaultLess defaultGreater
  rcases lt_trichotomy t u with h | h | h
  · simp [T3.ofBool, h, h.le, not_lt.2 h.le, not_le.2 h]
  · simp [T3.ofBool, h]
  · simp [T3.ofBool, h, h.le, not_lt.2 h.le, not_le.2 h]

/-- The default `equal` is right exactly if its first argument is greater; it says that equal values are different and that a
smaller value is equal to a greater one. -/
theorem C86_default_equal_partial {α : Type} [LinearOrder α] (t u : α) :
    defaultEqual t u = T3.ofBool (decide (t = u)) ↔ u < t := by
  unfold defaultEqual
  rcases lt_trichotomy t u with h | h | h
  · simp [T3.ofBool, h, h.ne, not_lt.2 h.le]
  · simp [T3.ofBool, h]
  · simp [T3.ofBool, h, h.ne', not_lt.2 h.le]

section
attribute [local instance] lp64

/-- 2.5 becomes 2 and -2.5 becomes -2 without report; 2^40, an infinity and NaN are undefined behaviour for `int` -/
theorem C86_refuted :
    number (.num 5 (-1)) = some (5 / 2) ∧ floatCast i32 (.num 5 (-1)) = .ret (.ok 2) ∧
    floatCast i32 (.num (-5) (-1)) = .ret (.ok (-2)) ∧ floatCast i32 (.num 1 40) = .fault .ub ∧
    floatCast i32 (.inf false) = .fault .ub ∧ floatCast i32 .nan = .fault .ub := by
  refine ⟨?_, by decide +kernel, by decide +kernel, by decide +kernel, by decide +kernel, by decide +kernel⟩
  unfold number
  norm_num

/-- `equal` of equal values is false, of 1 and 2 is true -/
theorem C86_default_equal_refuted :
    defaultEqual (3 : Int) 3 = T3.ff ∧ defaultEqual (1 : Int) 2 = T3.tt ∧ defaultEqual (2 : Int) 1 = T3.ff := by decide

example : number (.num 3 4) = some ((48 : Int) : ℚ) ∧ i32.In 48 ∧ floatCast i32 (.num 3 4) = .ret (.ok 48) := by
  refine ⟨?_, by decide, by decide +kernel⟩
  unfold number
  norm_num
/-- the conversion of 3.0 to `safe<long>` does not compile -/
example : constructFloat (Opd.ofSafe i64) binary64 (.num 3 0) = .fault .illFormed := by
  obtain ⟨q, h1, h2⟩ := C86_ieee i64 (by decide) binary64 (Or.inr rfl)
  exact C86_construct _ _ _ q h1 h2
end
end Verif.Props
