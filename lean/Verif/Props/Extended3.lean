import Verif.Proofs.SafeDiv
import Verif.Proofs.CRShift
import Verif.Props.Extended

/-!
Property C81: shifts of `checked_result` ("extended integers") when an operand is an overflow marker or another error.
`Spec.scale x y` is `x * 2^y`, for negative `y` rounded towards zero.
-/

namespace Verif.Props
open Spec
section
variable [Arch]

private theorem nm {R : ITy} {e : Err} {x : Int} (h1 : e ≠ .success) (h2 : e ≠ .positive_overflow_error)
    (h3 : e ≠ .negative_overflow_error) : Near R (.err e) x := by
  cases e <;> first | trivial | exact absurd rfl h1 | exact absurd rfl h2 | exact absurd rfl h3

omit [Arch] in
private theorem scale_zero (y : Int) : scale 0 y = 0 := by
  unfold scale; split <;> simp

omit [Arch] in
private theorem pow_le_self {x : Int} (hx : 0 ≤ x) (k : Nat) : x ≤ x * 2 ^ k := by
  have := one_le_two_pow k
  calc x = x * 1 := by omega
    _ ≤ x * 2 ^ k := Int.mul_le_mul_of_nonneg_left this hx

omit [Arch] in
/-- moving away from zero -/
private theorem scale_up {x y : Int} (hy : 0 ≤ y) : (0 ≤ x → x ≤ scale x y) ∧ (x ≤ 0 → scale x y ≤ x) := by
  unfold scale
  rw [if_pos hy]
  refine ⟨fun h => pow_le_self h _, fun h => ?_⟩
  have := pow_le_self (x := -x) (by omega) y.toNat
  rw [Int.neg_mul] at this
  omega

omit [Arch] in
/-- by more than the range -/
private theorem scale_far {x y m : Int} (hm : 0 ≤ m) (hy : m < y) : (0 < x → m < scale x y) ∧ (x < 0 → scale x y < -m - 1) := by
  have hp := lt_two_pow_toNat (k := y) (by omega)
  unfold scale
  rw [if_pos (by omega)]
  refine ⟨fun h => ?_, fun h => ?_⟩
  · have : (1 : Int) * 2 ^ y.toNat ≤ x * 2 ^ y.toNat := Int.mul_le_mul_of_nonneg_right (by omega) (by omega)
    omega
  · have : (1 : Int) * 2 ^ y.toNat ≤ -x * 2 ^ y.toNat := Int.mul_le_mul_of_nonneg_right (by omega) (by omega)
    rw [Int.neg_mul] at this
    omega

omit [Arch] in
private theorem scale_tiny {x y m : Int} (hm : 0 ≤ m) (hx : -m - 1 ≤ x ∧ x ≤ m) (hy : y < -m) : scale x y = 0 := by
  unfold scale
  rw [if_neg (by omega)]
  exact tdiv_big hx.1 hx.2 (by omega) hm

omit [Arch] in
private theorem in_wide {R : ITy} {x : Int} (h : R.In x) : -R.max - 1 ≤ x ∧ x ≤ R.max := by
  have e := ITy.min_eq R
  have := h.1
  have := h.2
  have := R.max_ge
  split at e <;> omega

private theorem flag3 {R : ITy} {a : Int} (ha : R.In a) : (a < 0 ∧ prodFlag R (.ok a) = .less_than_zero) ∨
    (a = 0 ∧ prodFlag R (.ok a) = .zero) ∨ (0 < a ∧ prodFlag R (.ok a) = .greater_than_zero) := by
  rcases Int.lt_trichotomy a 0 with h | h | h
  · exact Or.inl ⟨h, prodFlag_lt ha h⟩
  · subst h; exact Or.inr (Or.inl ⟨rfl, prodFlag_zero⟩)
  · exact Or.inr (Or.inr ⟨h, prodFlag_gt ha h⟩)

private theorem vague_left {R : ITy} {t u : CR} (h : Vague t) (n : Nat) (left : Bool) :
    crShift (n + 1) left R t u = .ret (.err .range_error) := by
  unfold crShift
  rw [h.prodFlag]
  cases left <;> cases prodFlag R u <;> rfl

/-- an unknown count -/
private theorem vague_right {R : ITy} {t u : CR} (h : Vague u) (n : Nat) (left : Bool) (ht : Proper R t) :
    crShift (n + 1) left R t u = .ret (if t = .ok 0 then .ok 0 else .err .range_error) := by
  rcases t.cases4 with ⟨a, rfl⟩ | rfl | rfl | hv
  · have ha : R.In a := ht
    unfold crShift
    rw [h.prodFlag]
    rcases Int.lt_trichotomy a 0 with h1 | h1 | h1
    · rw [prodFlag_lt ha h1, if_neg (show ¬ (CR.ok a = CR.ok 0) from fun h => by cases h; omega)]; cases left <;> rfl
    · subst h1; rw [prodFlag_zero]; cases left <;> rfl
    · rw [prodFlag_gt ha h1, if_neg (show ¬ (CR.ok a = CR.ok 0) from fun h => by cases h; omega)]; cases left <;> rfl
  · unfold crShift; rw [h.prodFlag]; cases left <;> rfl
  · unfold crShift; rw [h.prodFlag]; cases left <;> rfl
  · rw [vague_left hv]
    obtain ⟨e, rfl, _⟩ := hv
    rfl

/-- C81 (`<<`, partial: not a marker shifted by a negative count, nor a positive unsigned value by a count below zero): the outcome
soundly describes `x * 2^y` for all integers `x`, `y` described by the operands, overflow markers and unknown operands included.
(`Near`: a marker may also stand for the extreme value itself, see C46.) -/
theorem C81_shl_partial (R : ITy) (hR : R.Ok) (t u : CR) (x y : Int) (ht : Describes R t x) (hu : Describes R u y)
    (h1 : t = .err .positive_overflow_error ∨ t = .err .negative_overflow_error → u = .ok y → 0 ≤ y)
    (h2 : ∀ a, t = .ok a → 0 < a → u = .err .negative_overflow_error → R.signed = true) :
    ∃ c, crShl R t u = .ret c ∧ Near R c (scale x y) := by
  have hm := R.max_ge
  have e := ITy.min_eq R
  have hz := R.min_nonpos
  rcases t.cases4 with ⟨a, rfl⟩ | rfl | rfl | hv
  · obtain ⟨ha, rfl⟩ := ht
    have hw := in_wide ha
    rcases u.cases4 with ⟨b, rfl⟩ | rfl | rfl | hv
    · obtain ⟨hb, rfl⟩ := hu
      obtain ⟨c, _, hc, h⟩ := C46_shl R hR x y ha hb
      refine ⟨c, hc, ?_⟩
      rcases h with ⟨rfl, h⟩ | ⟨rfl, h⟩ | ⟨rfl, h⟩
      · exact ⟨h, rfl⟩
      · exact Int.le_of_lt h
      · exact h
    · have hu : y < R.min := hu
      refine ⟨.ok 0, ?_, ?_⟩
      · unfold crShl crShift
        rcases flag3 ha with ⟨g, hf⟩ | ⟨_, hf⟩ | ⟨g, hf⟩ <;> rw [hf] <;> first | rfl | omega
      · refine ⟨R.in_zero, ?_⟩
        rcases Int.lt_trichotomy x 0 with h3 | h3 | h3
        · obtain ⟨_, e'⟩ := neg_signed ha h3
          exact scale_tiny (by omega) hw (by omega)
        · subst h3; exact scale_zero y
        · rw [h2 x rfl h3 rfl, if_pos rfl] at e
          exact scale_tiny (by omega) hw (by omega)
    · have hu : R.max < y := hu
      have hf := scale_far (x := x) (by omega) hu
      unfold crShl crShift
      rcases Int.lt_trichotomy x 0 with h3 | h3 | h3
      · obtain ⟨_, e'⟩ := neg_signed ha h3
        rw [prodFlag_lt ha h3]
        refine ⟨_, rfl, ?_⟩
        have := hf.2 h3
        show scale x y ≤ R.min
        omega
      · subst h3
        rw [prodFlag_zero]
        exact ⟨_, rfl, R.in_zero, scale_zero y⟩
      · rw [prodFlag_gt ha h3]
        exact ⟨_, rfl, Int.le_of_lt (hf.1 h3)⟩
    · refine ⟨_, vague_right hv 2 true (show Proper R (.ok x) from ha), ?_⟩
      split_ifs with h
      · cases h
        exact ⟨R.in_zero, scale_zero y⟩
      · exact nm (by decide) (by decide) (by decide)
  · have ht : x < R.min := ht
    have key : 0 ≤ y → scale x y ≤ R.min := fun h => by have := (scale_up (x := x) h).2 (by omega); omega
    rcases u.cases4 with ⟨b, rfl⟩ | rfl | rfl | hv
    · obtain ⟨hb, rfl⟩ := hu
      have h0 := h1 (Or.inr rfl) rfl
      refine ⟨.err .negative_overflow_error, ?_, key h0⟩
      unfold crShl crShift
      rcases flag3 hb with ⟨g, hf⟩ | ⟨_, hf⟩ | ⟨g, hf⟩ <;> rw [hf] <;> first | rfl | omega
    · exact ⟨_, rfl, nm (by decide) (by decide) (by decide)⟩
    · have hu : R.max < y := hu
      exact ⟨_, rfl, key (by omega)⟩
    · exact ⟨_, vague_right hv 2 true (show Proper R (.err _) from nofun), nm (by decide) (by decide) (by decide)⟩
  · have ht : R.max < x := ht
    have key : 0 ≤ y → R.max ≤ scale x y := fun h => by have := (scale_up (x := x) h).1 (by omega); omega
    rcases u.cases4 with ⟨b, rfl⟩ | rfl | rfl | hv
    · obtain ⟨hb, rfl⟩ := hu
      have h0 := h1 (Or.inl rfl) rfl
      refine ⟨.err .positive_overflow_error, ?_, key h0⟩
      unfold crShl crShift
      rcases flag3 hb with ⟨g, hf⟩ | ⟨_, hf⟩ | ⟨g, hf⟩ <;> rw [hf] <;> first | rfl | omega
    · exact ⟨_, rfl, nm (by decide) (by decide) (by decide)⟩
    · have hu : R.max < y := hu
      exact ⟨_, rfl, key (by omega)⟩
    · exact ⟨_, vague_right hv 2 true (show Proper R (.err _) from nofun), nm (by decide) (by decide) (by decide)⟩
  · exact ⟨_, vague_left hv 2 true, nm (by decide) (by decide) (by decide)⟩

/-- C81 (`>>`, partial: not a marker shifted by a positive count, nor a positive unsigned value by a count below zero, nor the
undefined case of C46): the outcome soundly describes `x * 2^(-y)`. -/
theorem C81_shr_partial (R : ITy) (hR : R.Ok) (t u : CR) (x y : Int) (ht : Describes R t x) (hu : Describes R u y)
    (h1 : t = .err .positive_overflow_error ∨ t = .err .negative_overflow_error → u = .ok y → y ≤ 0)
    (h2 : ∀ a, t = .ok a → 0 < a → u = .err .negative_overflow_error → R.signed = true)
    (hub : ∀ a, t = .ok a → u = .ok y → ¬ (R.signed = false ∧ Arch.intLg ≤ R.lg ∧ y = R.bits ∧ 0 < a)) :
    ∃ c, crShr R t u = .ret c ∧ Near R c (scale x (-y)) := by
  have hm := R.max_ge
  have e := ITy.min_eq R
  have hz := R.min_nonpos
  rcases t.cases4 with ⟨a, rfl⟩ | rfl | rfl | hv
  · obtain ⟨ha, rfl⟩ := ht
    have hw := in_wide ha
    rcases u.cases4 with ⟨b, rfl⟩ | rfl | rfl | hv
    · obtain ⟨hb, rfl⟩ := hu
      obtain ⟨c, _, hc, h⟩ := C46_shr_partial R hR x y ha hb (hub x rfl rfl)
      refine ⟨c, hc, ?_⟩
      rcases h with ⟨rfl, h⟩ | ⟨rfl, h⟩ | ⟨rfl, h⟩
      · exact ⟨h, rfl⟩
      · exact Int.le_of_lt h
      · exact h
    · have hu : y < R.min := hu
      unfold crShr crShift
      rcases Int.lt_trichotomy x 0 with h3 | h3 | h3
      · obtain ⟨_, e'⟩ := neg_signed ha h3
        have hf := scale_far (x := x) (y := -y) (m := R.max) (by omega) (by omega)
        rw [prodFlag_lt ha h3]
        refine ⟨_, rfl, ?_⟩
        have := hf.2 h3
        show scale x (-y) ≤ R.min
        omega
      · subst h3
        rw [prodFlag_zero]
        exact ⟨_, rfl, R.in_zero, scale_zero _⟩
      · rw [h2 x rfl h3 rfl, if_pos rfl] at e
        have hf := scale_far (x := x) (y := -y) (m := R.max) (by omega) (by omega)
        rw [prodFlag_gt ha h3]
        exact ⟨_, rfl, Int.le_of_lt (hf.1 h3)⟩
    · have hu : R.max < y := hu
      refine ⟨.ok 0, ?_, R.in_zero, scale_tiny (m := R.max) (by omega) hw (by omega)⟩
      unfold crShr crShift
      rcases flag3 ha with ⟨g, hf⟩ | ⟨_, hf⟩ | ⟨g, hf⟩ <;> rw [hf] <;> first | rfl | omega
    · refine ⟨_, vague_right hv 2 false (show Proper R (.ok x) from ha), ?_⟩
      split_ifs with h
      · cases h
        exact ⟨R.in_zero, scale_zero _⟩
      · exact nm (by decide) (by decide) (by decide)
  · have ht : x < R.min := ht
    have key : y ≤ 0 → scale x (-y) ≤ R.min := fun h => by have := (scale_up (x := x) (y := -y) (by omega)).2 (by omega); omega
    rcases u.cases4 with ⟨b, rfl⟩ | rfl | rfl | hv
    · obtain ⟨hb, rfl⟩ := hu
      have h0 := h1 (Or.inr rfl) rfl
      refine ⟨.err .negative_overflow_error, ?_, key h0⟩
      unfold crShr crShift
      rcases flag3 hb with ⟨g, hf⟩ | ⟨_, hf⟩ | ⟨g, hf⟩ <;> rw [hf] <;> first | rfl | omega
    · have hu : y < R.min := hu
      exact ⟨_, rfl, key (by omega)⟩
    · exact ⟨_, rfl, nm (by decide) (by decide) (by decide)⟩
    · exact ⟨_, vague_right hv 2 false (show Proper R (.err _) from nofun), nm (by decide) (by decide) (by decide)⟩
  · have ht : R.max < x := ht
    have key : y ≤ 0 → R.max ≤ scale x (-y) := fun h => by have := (scale_up (x := x) (y := -y) (by omega)).1 (by omega); omega
    rcases u.cases4 with ⟨b, rfl⟩ | rfl | rfl | hv
    · obtain ⟨hb, rfl⟩ := hu
      have h0 := h1 (Or.inl rfl) rfl
      refine ⟨.err .positive_overflow_error, ?_, key h0⟩
      unfold crShr crShift
      rcases flag3 hb with ⟨g, hf⟩ | ⟨_, hf⟩ | ⟨g, hf⟩ <;> rw [hf] <;> first | rfl | omega
    · have hu : y < R.min := hu
      exact ⟨_, rfl, key (by omega)⟩
    · exact ⟨_, rfl, nm (by decide) (by decide) (by decide)⟩
    · exact ⟨_, vague_right hv 2 false (show Proper R (.err _) from nofun), nm (by decide) (by decide) (by decide)⟩
  · exact ⟨_, vague_left hv 2 false, nm (by decide) (by decide) (by decide)⟩

/-- C81: no operands, errors of any kind included, lead to undefined behaviour or a failing assertion in `<<`, and only the one case
of C46 does in `>>`. -/
theorem C81_total (R : ITy) (hR : R.Ok) (t u : CR) (ht : Proper R t) (hu : Proper R u) :
    (∃ c, crShl R t u = .ret c) ∧
    ((¬ ∃ a b, t = .ok a ∧ u = .ok b ∧ R.signed = false ∧ Arch.intLg ≤ R.lg ∧ b = R.bits ∧ 0 < a) → ∃ c, crShr R t u = .ret c) := by
  have errs : ∀ (left : Bool), (∃ e, t = .err e ∨ u = .err e) → ∃ c, crShift 3 left R t u = .ret c := by
    intro left h
    rcases t.cases4 with ⟨a, rfl⟩ | rfl | rfl | hv
    · have ha : R.In a := ht
      rcases u.cases4 with ⟨b, rfl⟩ | rfl | rfl | hv
      · obtain ⟨e, h | h⟩ := h <;> cases h
      · unfold crShift
        rcases flag3 ha with ⟨_, hf⟩ | ⟨_, hf⟩ | ⟨_, hf⟩ <;> rw [hf] <;> cases left <;> exact ⟨_, rfl⟩
      · unfold crShift
        rcases flag3 ha with ⟨_, hf⟩ | ⟨_, hf⟩ | ⟨_, hf⟩ <;> rw [hf] <;> cases left <;> exact ⟨_, rfl⟩
      · exact ⟨_, vague_right hv 2 left ht⟩
    · rcases u.cases4 with ⟨b, rfl⟩ | rfl | rfl | hv
      · have hb : R.In b := hu
        unfold crShift
        rcases flag3 hb with ⟨_, hf⟩ | ⟨_, hf⟩ | ⟨_, hf⟩ <;> rw [hf] <;> cases left <;> exact ⟨_, rfl⟩
      · cases left <;> exact ⟨_, rfl⟩
      · cases left <;> exact ⟨_, rfl⟩
      · exact ⟨_, vague_right hv 2 left ht⟩
    · rcases u.cases4 with ⟨b, rfl⟩ | rfl | rfl | hv
      · have hb : R.In b := hu
        unfold crShift
        rcases flag3 hb with ⟨_, hf⟩ | ⟨_, hf⟩ | ⟨_, hf⟩ <;> rw [hf] <;> cases left <;> exact ⟨_, rfl⟩
      · cases left <;> exact ⟨_, rfl⟩
      · cases left <;> exact ⟨_, rfl⟩
      · exact ⟨_, vague_right hv 2 left ht⟩
    · exact ⟨_, vague_left hv 2 left⟩
  cases t with
  | err e => exact ⟨errs true ⟨e, Or.inl rfl⟩, fun _ => errs false ⟨e, Or.inl rfl⟩⟩
  | ok a =>
    cases u with
    | err e => exact ⟨errs true ⟨e, Or.inr rfl⟩, fun _ => errs false ⟨e, Or.inr rfl⟩⟩
    | ok b =>
      refine ⟨?_, fun h => ?_⟩
      · obtain ⟨c, _, hc, _⟩ := C46_shl R hR a b ht hu
        exact ⟨c, hc⟩
      · obtain ⟨c, _, hc, _⟩ := C46_shr_partial R hR a b ht hu (fun h' => h ⟨a, b, rfl, rfl, h'⟩)
        exact ⟨c, hc⟩

/-- C81: an unknown operand gives `range_error` in both operators, except that zero shifted by an unknown count is zero. -/
theorem C81_unknown (R : ITy) (t : CR) (ht : Proper R t) (e : Err) (h1 : e ≠ .positive_overflow_error)
    (h2 : e ≠ .negative_overflow_error) :
    crShl R (.err e) t = .ret (.err .range_error) ∧ crShr R (.err e) t = .ret (.err .range_error) ∧
    crShl R t (.err e) = .ret (if t = .ok 0 then .ok 0 else .err .range_error) ∧
    crShr R t (.err e) = .ret (if t = .ok 0 then .ok 0 else .err .range_error) :=
  have hv : Vague (.err e) := ⟨e, rfl, h1, h2⟩
  ⟨vague_left hv 2 true, vague_left hv 2 false, vague_right hv 2 true ht, vague_right hv 2 false ht⟩

end

/- the hypotheses can be met, markers included -/
example : Describes i8 (.err .negative_overflow_error) (-129) ∧ Describes i8 (.err .positive_overflow_error) 128 ∧
    @crShl lp64 i8 (.err .negative_overflow_error) (.err .positive_overflow_error) = .ret (.err .negative_overflow_error) := by decide
example : @crShl lp64 i8 (.ok 5) (.err .negative_overflow_error) = .ret (.ok 0) ∧ scale 5 (-129) = 0 := by decide
example : @crShr lp64 i8 (.ok (-5)) (.err .negative_overflow_error) = .ret (.err .negative_overflow_error) := by decide
example : @crShl lp64 i8 (.err .negative_overflow_error) (.err .range_error) = .ret (.err .range_error) ∧
    @crShr lp64 i8 (.ok 0) (.err .domain_error) = .ret (.ok 0) := by decide

instance (R : ITy) (c : CR) (x : Int) : Decidable (Near R c x) := by
  unfold Near; split <;> infer_instance

/-- C81 fails for the excluded operands: -129 shifted right by one is -64 and 128 is 64, but both are reported as beyond the range;
for an unsigned type 5 shifted by a count of -1 is 2 or 10, but is reported as 0 or as beyond the range. -/
theorem C81_refuted :
    (@crShl lp64 i8 (.err .negative_overflow_error) (.ok (-1)) = .ret (.err .negative_overflow_error) ∧
      Describes i8 (.err .negative_overflow_error) (-129) ∧ ¬ Near i8 (.err .negative_overflow_error) (scale (-129) (-1))) ∧
    (@crShr lp64 i8 (.err .positive_overflow_error) (.ok 1) = .ret (.err .positive_overflow_error) ∧
      Describes i8 (.err .positive_overflow_error) 128 ∧ ¬ Near i8 (.err .positive_overflow_error) (scale 128 (-1))) ∧
    (@crShl lp64 u8 (.ok 5) (.err .negative_overflow_error) = .ret (.ok 0) ∧
      Describes u8 (.err .negative_overflow_error) (-1) ∧ ¬ Near u8 (.ok 0) (scale 5 (-1))) ∧
    (@crShr lp64 u8 (.ok 5) (.err .negative_overflow_error) = .ret (.err .positive_overflow_error) ∧
      ¬ Near u8 (.err .positive_overflow_error) (scale 5 1)) := by decide

end Verif.Props
