import Verif.Proofs.CRShift

/-!
Properties C15, C16, C45, C46: arithmetic and comparison of `checked_result` ("extended integers").
-/

namespace Verif.Props
open Spec
section
variable [Arch]

/-! ### C15 sums, differences, negation, products

C15 in full would be: `Describes R t x → Describes R u y → ∃ c, crAdd R t u = .ret c ∧ Describes R c (x + y)`, and
likewise for the other operators. This is false for the unchanged code (`C15_*_refuted`). Proved instead:
* `C15_value_exact`: the operators never fail and a result that is a *value* is always the true result;
* `C15_*_partial`: the overflow markers are right too under conditions that exclude exactly the defects. -/

/-- Whatever the operands are, no operator has undefined behaviour or fails an assertion, and whenever
the outcome is a value it is the exact mathematical result. -/
theorem C15_value_exact (R : ITy) (hR : R.Ok) (t u : CR) (x y : Int) (ht : Describes R t x) (hu : Describes R u y) :
    (∃ c, crAdd R t u = .ret c ∧ ∀ v, c = .ok v → R.In v ∧ v = x + y) ∧
    (∃ c, crSub R t u = .ret c ∧ ∀ v, c = .ok v → R.In v ∧ v = x - y) ∧
    (∃ c, crNeg R t = .ret c ∧ ∀ v, c = .ok v → R.In v ∧ v = - x) ∧
    (∃ c, crMul R t u = .ret c ∧ ∀ v, c = .ok v → R.In v ∧ v = x * y) := by
  have key : ∀ z v, exactOr R.min R.max z = .ok v → R.In v ∧ v = z := fun z v h => by
    have := exactOr_describes (R := R) z
    rw [h] at this
    exact ⟨this.1, this.2.symm⟩
  have z0 : R.In 0 := R.in_zero
  have hneg : ∃ c, crNeg R t = .ret c ∧ ∀ v, c = .ok v → R.In v ∧ v = - x := by
    rcases t.cases4 with ⟨a, rfl⟩ | rfl | rfl | hv
    · obtain ⟨ha, rfl⟩ := ht
      exact ⟨_, crNeg_ok ha, key _⟩
    · exact ⟨_, rfl, by simp⟩
    · exact ⟨_, rfl, by simp⟩
    · exact ⟨_, crSub_vague (Or.inr hv), by simp⟩
  rcases t.cases4 with ⟨a, rfl⟩ | rfl | rfl | hv
  · obtain ⟨ha, rfl⟩ := ht
    rcases u.cases4 with ⟨b, rfl⟩ | rfl | rfl | hv
    · obtain ⟨hb, rfl⟩ := hu
      exact ⟨⟨_, crAdd_ok ha hb, key _⟩, ⟨_, crSub_ok ha hb, key _⟩, hneg, ⟨_, crMul_ok hR ha hb, key _⟩⟩
    · refine ⟨⟨_, rfl, by simp⟩, ⟨_, rfl, by simp⟩, hneg, ⟨_, crMul_ok_neg ha, ?_⟩⟩
      intro v; split_ifs <;> simp
      rintro rfl; obtain rfl : x = 0 := by omega
      simp [z0]
    · refine ⟨⟨_, rfl, by simp⟩, ⟨_, rfl, by simp⟩, hneg, ⟨_, crMul_ok_pos ha, ?_⟩⟩
      intro v; split_ifs <;> simp
      rintro rfl; obtain rfl : x = 0 := by omega
      simp [z0]
    · exact ⟨⟨_, crAdd_vague (Or.inr hv), by simp⟩, ⟨_, crSub_vague (Or.inr hv), by simp⟩, hneg,
        ⟨_, crMul_vague (Or.inr hv), by simp⟩⟩
  · rcases u.cases4 with ⟨b, rfl⟩ | rfl | rfl | hv
    · obtain ⟨hb, rfl⟩ := hu
      refine ⟨⟨_, rfl, by simp⟩, ⟨_, rfl, by simp⟩, hneg, ⟨_, crMul_neg_ok hb, ?_⟩⟩
      intro v; split_ifs <;> simp
      rintro rfl; obtain rfl : y = 0 := by omega
      simp [z0]
    · exact ⟨⟨_, rfl, by simp⟩, ⟨_, rfl, by simp⟩, hneg, ⟨_, rfl, by simp⟩⟩
    · exact ⟨⟨_, rfl, by simp⟩, ⟨_, rfl, by simp⟩, hneg, ⟨_, rfl, by simp⟩⟩
    · exact ⟨⟨_, crAdd_vague (Or.inr hv), by simp⟩, ⟨_, crSub_vague (Or.inr hv), by simp⟩, hneg,
        ⟨_, crMul_vague (Or.inr hv), by simp⟩⟩
  · rcases u.cases4 with ⟨b, rfl⟩ | rfl | rfl | hv
    · obtain ⟨hb, rfl⟩ := hu
      refine ⟨⟨_, rfl, by simp⟩, ⟨_, rfl, by simp⟩, hneg, ⟨_, crMul_pos_ok hb, ?_⟩⟩
      intro v; split_ifs <;> simp
      rintro rfl; obtain rfl : y = 0 := by omega
      simp [z0]
    · exact ⟨⟨_, rfl, by simp⟩, ⟨_, rfl, by simp⟩, hneg, ⟨_, rfl, by simp⟩⟩
    · exact ⟨⟨_, rfl, by simp⟩, ⟨_, rfl, by simp⟩, hneg, ⟨_, rfl, by simp⟩⟩
    · exact ⟨⟨_, crAdd_vague (Or.inr hv), by simp⟩, ⟨_, crSub_vague (Or.inr hv), by simp⟩, hneg,
        ⟨_, crMul_vague (Or.inr hv), by simp⟩⟩
  · exact ⟨⟨_, crAdd_vague (Or.inl hv), by simp⟩, ⟨_, crSub_vague (Or.inl hv), by simp⟩, hneg,
      ⟨_, crMul_vague (Or.inl hv), by simp⟩⟩

/-- C15 for `+`, excluding sums of a value and an overflow marker with opposite signs. -/
theorem C15_add_partial (R : ITy) (t u : CR) (x y : Int) (ht : Describes R t x) (hu : Describes R u y)
    (h1 : ∀ a, t = .ok a → u = .err .negative_overflow_error → a ≤ 0)
    (h2 : ∀ a, t = .ok a → u = .err .positive_overflow_error → 0 ≤ a)
    (h3 : ∀ b, u = .ok b → t = .err .negative_overflow_error → b ≤ 0)
    (h4 : ∀ b, u = .ok b → t = .err .positive_overflow_error → 0 ≤ b) :
    ∃ c, crAdd R t u = .ret c ∧ Describes R c (x + y) := by
  have hz := R.min_nonpos; have hm := R.max_ge
  rcases t.cases4 with ⟨a, rfl⟩ | rfl | rfl | hv
  · obtain ⟨ha, rfl⟩ := ht
    rcases u.cases4 with ⟨b, rfl⟩ | rfl | rfl | hv
    · obtain ⟨hb, rfl⟩ := hu
      exact ⟨_, crAdd_ok ha hb, exactOr_describes _⟩
    · have := h1 _ rfl rfl; have hu : y < R.min := hu
      exact ⟨_, rfl, show x + y < R.min by omega⟩
    · have := h2 _ rfl rfl; have hu : R.max < y := hu
      exact ⟨_, rfl, show R.max < x + y by omega⟩
    · exact ⟨_, crAdd_vague (Or.inr hv), trivial⟩
  · have ht : x < R.min := ht
    rcases u.cases4 with ⟨b, rfl⟩ | rfl | rfl | hv
    · obtain ⟨hb, rfl⟩ := hu
      have := h3 _ rfl rfl
      exact ⟨_, rfl, show x + y < R.min by omega⟩
    · have hu : y < R.min := hu
      exact ⟨_, rfl, show x + y < R.min by omega⟩
    · exact ⟨_, rfl, trivial⟩
    · exact ⟨_, crAdd_vague (Or.inr hv), trivial⟩
  · have ht : R.max < x := ht
    rcases u.cases4 with ⟨b, rfl⟩ | rfl | rfl | hv
    · obtain ⟨hb, rfl⟩ := hu
      have := h4 _ rfl rfl
      exact ⟨_, rfl, show R.max < x + y by omega⟩
    · exact ⟨_, rfl, trivial⟩
    · have hu : R.max < y := hu
      exact ⟨_, rfl, show R.max < x + y by omega⟩
    · exact ⟨_, crAdd_vague (Or.inr hv), trivial⟩
  · exact ⟨_, crAdd_vague (Or.inl hv), trivial⟩

example : @crAdd lp64 i8 (.ok (-5)) (.err .negative_overflow_error) = .ret (.err .negative_overflow_error)
    ∧ Describes i8 (.ok (-5)) (-5) ∧ Describes i8 (.err .negative_overflow_error) (-200) := by decide

omit [Arch] in
/-- C15 fails for `+`: in an 8 bit type, 100 plus something below -128 is reported as being below -128, but
100 + (-129) = -29. -/
theorem C15_add_refuted :
    Describes i8 (.ok 100) 100 ∧ Describes i8 (.err .negative_overflow_error) (-129) ∧
    @crAdd lp64 i8 (.ok 100) (.err .negative_overflow_error) = .ret (.err .negative_overflow_error) ∧
    ¬ Describes i8 (.err .negative_overflow_error) (100 + -129) := by decide

/-- C15 for `-`, with the corresponding exclusions. -/
theorem C15_sub_partial (R : ITy) (t u : CR) (x y : Int) (ht : Describes R t x) (hu : Describes R u y)
    (h1 : ∀ a, t = .ok a → u = .err .negative_overflow_error → R.signed = true ∧ -1 ≤ a)
    (h2 : ∀ a, t = .ok a → u = .err .positive_overflow_error → R.signed = false ∨ a < 0)
    (h3 : ∀ b, u = .ok b → t = .err .negative_overflow_error → 0 ≤ b)
    (h4 : ∀ b, u = .ok b → t = .err .positive_overflow_error → b ≤ 0) :
    ∃ c, crSub R t u = .ret c ∧ Describes R c (x - y) := by
  have hz := R.min_nonpos; have hm := R.max_ge
  have e := ITy.min_eq R
  rcases t.cases4 with ⟨a, rfl⟩ | rfl | rfl | hv
  · obtain ⟨ha, rfl⟩ := ht
    rcases u.cases4 with ⟨b, rfl⟩ | rfl | rfl | hv
    · obtain ⟨hb, rfl⟩ := hu
      exact ⟨_, crSub_ok ha hb, exactOr_describes _⟩
    · obtain ⟨hs, h⟩ := h1 _ rfl rfl; have hu : y < R.min := hu
      rw [hs, if_pos rfl] at e
      exact ⟨_, rfl, show R.max < x - y by omega⟩
    · have h := h2 _ rfl rfl; have hu : R.max < y := hu
      have := ha.2
      refine ⟨_, rfl, show x - y < R.min from ?_⟩
      rcases h with h | h
      · rw [ITy.min_unsigned h]; omega
      · have := ha.1
        split at e <;> omega
    · exact ⟨_, crSub_vague (Or.inr hv), trivial⟩
  · have ht : x < R.min := ht
    rcases u.cases4 with ⟨b, rfl⟩ | rfl | rfl | hv
    · obtain ⟨hb, rfl⟩ := hu
      have := h3 _ rfl rfl
      exact ⟨_, rfl, show x - y < R.min by omega⟩
    · exact ⟨_, rfl, trivial⟩
    · have hu : R.max < y := hu
      exact ⟨_, rfl, show x - y < R.min by omega⟩
    · exact ⟨_, crSub_vague (Or.inr hv), trivial⟩
  · have ht : R.max < x := ht
    rcases u.cases4 with ⟨b, rfl⟩ | rfl | rfl | hv
    · obtain ⟨hb, rfl⟩ := hu
      have := h4 _ rfl rfl
      exact ⟨_, rfl, show R.max < x - y by omega⟩
    · have hu : y < R.min := hu
      exact ⟨_, rfl, show R.max < x - y by omega⟩
    · exact ⟨_, rfl, trivial⟩
    · exact ⟨_, crSub_vague (Or.inr hv), trivial⟩
  · exact ⟨_, crSub_vague (Or.inl hv), trivial⟩

example : @crSub lp64 i8 (.ok 5) (.err .negative_overflow_error) = .ret (.err .positive_overflow_error)
    ∧ Describes i8 (.ok 5) 5 ∧ Describes i8 (.err .negative_overflow_error) (-200) := by decide

omit [Arch] in
/-- C15 fails for `-`: 100 minus something above 127 is reported as being below -128, but 100 - 128 = -28. -/
theorem C15_sub_refuted :
    Describes i8 (.ok 100) 100 ∧ Describes i8 (.err .positive_overflow_error) 128 ∧
    @crSub lp64 i8 (.ok 100) (.err .positive_overflow_error) = .ret (.err .negative_overflow_error) ∧
    ¬ Describes i8 (.err .negative_overflow_error) (100 - 128) := by decide

/-- C15 for unary minus, excluding the negation of max + 1 in signed types and of negative values in
unsigned types. -/
theorem C15_neg_partial (R : ITy) (t : CR) (x : Int) (ht : Describes R t x)
    (h1 : t = .err .negative_overflow_error → R.signed = true)
    (h2 : t = .err .positive_overflow_error → R.signed = true → x ≠ R.max + 1) :
    ∃ c, crNeg R t = .ret c ∧ Describes R c (-x) := by
  have hz := R.min_nonpos; have hm := R.max_ge
  have e := ITy.min_eq R
  rcases t.cases4 with ⟨a, rfl⟩ | rfl | rfl | hv
  · obtain ⟨ha, rfl⟩ := ht
    exact ⟨_, crNeg_ok ha, exactOr_describes _⟩
  · have hs := h1 rfl; have ht : x < R.min := ht
    rw [hs, if_pos rfl] at e
    exact ⟨_, rfl, show R.max < -x by omega⟩
  · have ht : R.max < x := ht
    have h2 := h2 rfl
    refine ⟨_, rfl, show -x < R.min from ?_⟩
    split at e
    · rename_i hs; have := h2 hs; omega
    · omega
  · exact ⟨_, crSub_vague (Or.inr hv), trivial⟩

example : @crNeg lp64 i8 (.err .negative_overflow_error) = .ret (.err .positive_overflow_error)
    ∧ Describes i8 (.err .negative_overflow_error) (-129) := by decide

omit [Arch] in
/-- C15 fails for unary minus: minus 128 is representable in 8 bits but reported as below the minimum; in
an unsigned type minus "something negative" is reported as above the maximum. -/
theorem C15_neg_refuted :
    (Describes i8 (.err .positive_overflow_error) 128 ∧
      @crNeg lp64 i8 (.err .positive_overflow_error) = .ret (.err .negative_overflow_error) ∧
      ¬ Describes i8 (.err .negative_overflow_error) (-128)) ∧
    (Describes u8 (.err .negative_overflow_error) (-1) ∧
      @crNeg lp64 u8 (.err .negative_overflow_error) = .ret (.err .positive_overflow_error) ∧
      ¬ Describes u8 (.err .positive_overflow_error) (-(-1))) := by decide

/-- C15 for `*`, excluding (-1) * (max + 1) and the product of two "negative" values of an unsigned type. -/
theorem C15_mul_partial (R : ITy) (hR : R.Ok) (t u : CR) (x y : Int) (ht : Describes R t x) (hu : Describes R u y)
    (h1 : R.signed = true ∨ ¬ (t = .err .negative_overflow_error ∧ u = .err .negative_overflow_error))
    (h2 : ¬ (t = .ok (-1) ∧ u = .err .positive_overflow_error ∧ y = R.max + 1))
    (h3 : ¬ (u = .ok (-1) ∧ t = .err .positive_overflow_error ∧ x = R.max + 1)) :
    ∃ c, crMul R t u = .ret c ∧ Describes R c (x * y) := by
  obtain ⟨c, h, _, h'⟩ := crMul_near hR ht hu h1
  exact ⟨c, h, h' h2 h3⟩

example : @crMul lp64 i8 (.ok (-2)) (.err .positive_overflow_error) = .ret (.err .negative_overflow_error)
    ∧ Describes i8 (.ok (-2)) (-2) ∧ Describes i8 (.err .positive_overflow_error) 128 := by decide

omit [Arch] in
/-- C15 fails for `*`. -/
theorem C15_mul_refuted :
    (Describes i8 (.ok (-1)) (-1) ∧ Describes i8 (.err .positive_overflow_error) 128 ∧
      @crMul lp64 i8 (.ok (-1)) (.err .positive_overflow_error) = .ret (.err .negative_overflow_error) ∧
      ¬ Describes i8 (.err .negative_overflow_error) (-1 * 128)) ∧
    (Describes u8 (.err .negative_overflow_error) (-1) ∧
      @crMul lp64 u8 (.err .negative_overflow_error) (.err .negative_overflow_error)
        = .ret (.err .positive_overflow_error) ∧
      ¬ Describes u8 (.err .positive_overflow_error) (-1 * -1)) := by decide

/-! ### C16 comparisons -/

/-- C16 -/
theorem C16_comparisons (R : ITy) (t u : CR) (x y : Int) (ht : Describes R t x) (hu : Describes R u y) :
    ((crLt R t u = .tt → x < y) ∧ (crLt R t u = .ff → ¬ x < y)) ∧
    ((crGt R t u = .tt → x > y) ∧ (crGt R t u = .ff → ¬ x > y)) ∧
    ((crLe R t u = .tt → x ≤ y) ∧ (crLe R t u = .ff → ¬ x ≤ y)) ∧
    ((crGe R t u = .tt → x ≥ y) ∧ (crGe R t u = .ff → ¬ x ≥ y)) ∧
    ((crEq R t u = .tt → x = y) ∧ (crEq R t u = .ff → ¬ x = y)) ∧
    ((crNe R t u = .tt → x ≠ y) ∧ (crNe R t u = .ff → ¬ x ≠ y)) ∧
    (t.exception = false → u.exception = false →
      crLt R t u ≠ .ind ∧ crGt R t u ≠ .ind ∧ crLe R t u ≠ .ind ∧ crGe R t u ≠ .ind ∧ crEq R t u ≠ .ind ∧
      crNe R t u ≠ .ind) := by
  have lt := @crLt_sound _ R t u x y ht hu
  have gt := @crLt_sound _ R u t y x hu ht
  have eq := @crEq_sound _ R t u x y ht hu
  refine ⟨lt, gt, ?_, ?_, eq, ?_, ?_⟩
  · unfold crLe
    constructor
    · intro h; have := gt.2 (by revert h; cases crLt R u t <;> simp [T3.not]); omega
    · intro h; have := gt.1 (by revert h; cases crLt R u t <;> simp [T3.not]); omega
  · unfold crGe
    constructor
    · intro h; have := lt.2 (by revert h; cases crLt R t u <;> simp [T3.not]); omega
    · intro h; have := lt.1 (by revert h; cases crLt R t u <;> simp [T3.not]); omega
  · unfold crNe
    constructor
    · intro h; exact eq.2 (by revert h; cases crEq R t u <;> simp [T3.not])
    · intro h; have := eq.1 (by revert h; cases crEq R t u <;> simp [T3.not]); simpa using this
  · intro ht' hu'
    rcases t with a | e
    · rcases u with b | e'
      · unfold crGt crLe crGe crNe
        rw [crLt_ok ht.1 hu.1, crLt_ok hu.1 ht.1, crEq_ok ht.1 hu.1]
        by_cases h1 : a < b <;> by_cases h2 : b < a <;> by_cases h3 : a = b <;>
          simp [h1, h2, h3, T3.ofBool, T3.not]
      · cases e' <;> simp [CR.exception] at hu'
        exact absurd hu (by simp [Describes])
    · cases e <;> simp [CR.exception] at ht'
      exact absurd ht (by simp [Describes])

example : @crLt lp64 i8 (.err .negative_overflow_error) (.ok (-128)) = .tt := by decide
example : @crLe lp64 u8 (.err .positive_overflow_error) (.ok 255) = .ff := by decide
example : @crEq lp64 i8 (.err .positive_overflow_error) (.err .positive_overflow_error) = .ind := by decide

/-! ### C45 division by an extended integer -/

/-- C45, excluding the two defects refuted below: a negative denominator described only by an overflow
marker of an unsigned type, and minimum / (maximum + 1) of a signed type. -/
theorem C45_div_partial (R : ITy) (a : Int) (u : CR) (y : Int) (ha : R.In a) (hu : Describes R u y) (h0 : y ≠ 0)
    (h1 : u = .err .negative_overflow_error → R.signed = true)
    (h2 : ¬ (u = .err .positive_overflow_error ∧ y = R.max + 1 ∧ a = R.min ∧ R.signed = true)) :
    ∃ c, crDiv R (.ok a) u = .ret c ∧ Describes R c (a.tdiv y) := by
  have hz := R.min_nonpos; have hm := R.max_ge
  have e := ITy.min_eq R
  have ha1 := ha.1; have ha2 := ha.2
  rcases u.cases4 with ⟨b, rfl⟩ | rfl | rfl | hv
  · obtain ⟨hb, rfl⟩ := hu
    refine ⟨_, crDiv_ok ha hb h0, ?_⟩
    split_ifs with h
    · exact h
    · refine ⟨?_, rfl⟩
      by_cases hbad : R.signed = true ∧ y = -1 ∧ a = R.min
      · obtain ⟨hs, rfl, rfl⟩ := hbad
        rw [hs, if_pos rfl] at e
        rw [Int.tdiv_neg, Int.tdiv_one] at h
        omega
      · exact tdiv_in ha hb h0 hbad
  · have hu : y < R.min := hu
    rw [h1 rfl, if_pos rfl] at e
    refine ⟨_, (crDiv_ok_marker ha).1, ?_⟩
    rw [tdiv_eq_zero_of_abs (by omega) (by omega) (by omega) (by omega)]
    exact ⟨R.in_zero, rfl⟩
  · have hu : R.max < y := hu
    refine ⟨_, (crDiv_ok_marker ha).2, ?_⟩
    have h3 : ¬ (y = R.max + 1 ∧ a = R.min ∧ R.signed = true) := fun h => h2 ⟨rfl, h⟩
    rw [tdiv_eq_zero_of_abs (by split at e <;> omega) (by split at e <;> simp_all <;> omega)
      (by split at e <;> omega) (by split at e <;> simp_all <;> omega)]
    exact ⟨R.in_zero, rfl⟩
  · exact ⟨_, crDiv_vague (Or.inr hv), trivial⟩

example : @crDiv lp64 i8 (.ok (-128)) (.err .negative_overflow_error) = .ret (.ok 0)
    ∧ Describes i8 (.err .negative_overflow_error) (-129) := by decide
example : @crDiv lp64 i8 (.ok (-128)) (.ok (-1)) = .ret (.err .positive_overflow_error) := by decide

omit [Arch] in
/-- C45 fails: -128 / 128 = -1 and, for an unsigned type, 5 / (-1) = -5, but both are reported as exactly 0. -/
theorem C45_div_refuted :
    (Describes i8 (.err .positive_overflow_error) 128 ∧
      @crDiv lp64 i8 (.ok (-128)) (.err .positive_overflow_error) = .ret (.ok 0) ∧
      ¬ Describes i8 (.ok 0) ((-128 : Int).tdiv 128)) ∧
    (Describes u8 (.err .negative_overflow_error) (-1) ∧
      @crDiv lp64 u8 (.ok 5) (.err .negative_overflow_error) = .ret (.ok 0) ∧
      ¬ Describes u8 (.ok 0) ((5 : Int).tdiv (-1))) := by decide

/-! ### C46 shifts

`Spec.scale t u` is `t * 2^u`, for negative `u` rounded towards zero. -/

/-- C46 for `<<`: always returns (at any recursion depth from 3 on); the outcome is the exact value or the
overflow marker of the right side. A marker is wrong only for `t * 2^u = minimum`, where it reports an overflow
for a representable value. -/
theorem C46_shl (R : ITy) (hR : R.Ok) (t u : Int) (ht : R.In t) (hu : R.In u) :
    ∃ c, (∀ n, crShift (n + 3) true R (.ok t) (.ok u) = .ret c) ∧ crShl R (.ok t) (.ok u) = .ret c ∧
      (c = .ok (scale t u) ∧ R.In (scale t u) ∨
       c = .err .positive_overflow_error ∧ R.max < scale t u ∨
       c = .err .negative_overflow_error ∧ scale t u ≤ R.min) := by
  refine ⟨_, fun n => crShl_ok hR ht hu n, crShl_ok hR ht hu 0, ?_⟩
  have hz := R.min_nonpos
  split_ifs with h1 h2
  · exact Or.inr (Or.inl ⟨rfl, h1⟩)
  · exact Or.inr (Or.inr ⟨rfl, h2.2.2⟩)
  · refine Or.inl ⟨rfl, ?_, by omega⟩
    by_cases h : t < 0 ∧ 0 < u
    · omega
    · unfold scale
      have ht1 := ht.1
      split_ifs with hu0
      · rcases Int.lt_or_le t 0 with h3 | h3
        · obtain rfl : u = 0 := by omega
          simpa using ht1
        · have := Int.mul_nonneg h3 (Int.le_of_lt (two_pow_pos u.toNat)); omega
      · rcases Int.lt_or_le t 0 with h3 | h3
        · have := tdiv_neg_pos_bounds (a := t) (b := 2 ^ (-u).toNat) (by omega) (two_pow_pos _); omega
        · have := tdiv_nonneg_bounds (a := t) (b := 2 ^ (-u).toNat) (by omega) (two_pow_pos _); omega

example : @crShl lp64 i8 (.ok (-3)) (.ok 5) = .ret (.ok (-96)) := by decide
example : @crShl lp64 i8 (.ok (-127)) (.ok (-3)) = .ret (.ok (-15)) := by decide
example : @crShl lp64 i8 (.ok (-1)) (.ok 7) = .ret (.err .negative_overflow_error) := by decide
example : @crShl lp64 u8 (.ok 3) (.ok 7) = .ret (.err .positive_overflow_error) := by decide

/-- C46 for `>>`, excluding the shift of an unsigned value at least as wide as `int` by exactly its width. -/
theorem C46_shr_partial (R : ITy) (hR : R.Ok) (t u : Int) (ht : R.In t) (hu : R.In u)
    (hub : ¬ (R.signed = false ∧ Arch.intLg ≤ R.lg ∧ u = R.bits ∧ 0 < t)) :
    ∃ c, (∀ n, crShift (n + 3) false R (.ok t) (.ok u) = .ret c) ∧ crShr R (.ok t) (.ok u) = .ret c ∧
      (c = .ok (scale t (-u)) ∧ R.In (scale t (-u)) ∨
       c = .err .positive_overflow_error ∧ R.max < scale t (-u) ∨
       c = .err .negative_overflow_error ∧ scale t (-u) ≤ R.min) := by
  refine ⟨_, fun n => crShr_ok hR ht hu hub n, crShr_ok hR ht hu hub 0, ?_⟩
  have hz := R.min_nonpos
  split_ifs with h1 h2
  · exact Or.inr (Or.inl ⟨rfl, h1⟩)
  · exact Or.inr (Or.inr ⟨rfl, h2.2.2⟩)
  · refine Or.inl ⟨rfl, ?_, by omega⟩
    by_cases h : t < 0 ∧ u < 0
    · omega
    · unfold scale
      have ht1 := ht.1
      split_ifs with hu0
      · rcases Int.lt_or_le t 0 with h3 | h3
        · obtain rfl : u = 0 := by omega
          simpa using ht1
        · have := Int.mul_nonneg h3 (Int.le_of_lt (two_pow_pos (-u).toNat)); omega
      · rcases Int.lt_or_le t 0 with h3 | h3
        · have := tdiv_neg_pos_bounds (a := t) (b := 2 ^ (- -u).toNat) (by omega) (two_pow_pos _); omega
        · have := tdiv_nonneg_bounds (a := t) (b := 2 ^ (- -u).toNat) (by omega) (two_pow_pos _); omega

example : @crShr lp64 i8 (.ok (-127)) (.ok 3) = .ret (.ok (-15)) := by decide
example : @crShr lp64 i8 (.ok 5) (.ok (-4)) = .ret (.ok 80) := by decide
example : @crShr lp64 u8 (.ok 200) (.ok 9) = .ret (.ok 0) := by decide

omit [Arch] in
/-- C46 fails for `>>` of a 32 bit unsigned value by 32: undefined behaviour. -/
theorem C46_shr_refuted : @crShr lp64 u32 (.ok 1) (.ok 32) = .fault .ub := by decide

end
end Verif.Props
