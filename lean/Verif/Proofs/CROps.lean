import Verif.CROps
import Verif.Spec
import Verif.Proofs.Utility2

/-! Closed forms and soundness of the extended integer operators. -/

namespace Verif
open Spec

/-- any error that is not an overflow marker -/
def Vague (c : CR) : Prop :=
  ∃ e, c = .err e ∧ e ≠ .positive_overflow_error ∧ e ≠ .negative_overflow_error

theorem CR.cases4 (c : CR) :
    (∃ v, c = .ok v) ∨ c = .err .negative_overflow_error ∨ c = .err .positive_overflow_error ∨ Vague c := by
  rcases c with v | e
  · exact Or.inl ⟨v, rfl⟩
  · by_cases h1 : e = .negative_overflow_error
    · subst h1; simp
    · by_cases h2 : e = .positive_overflow_error
      · subst h2; simp
      · exact Or.inr (Or.inr (Or.inr ⟨e, rfl, h2, h1⟩))

theorem Vague.sumFlag {c : CR} (h : Vague c) : sumFlag c = .indeterminate := by
  obtain ⟨e, rfl, h1, h2⟩ := h
  cases e <;> first | rfl | contradiction

@[simp] theorem sumFlag_ok (v : Int) : sumFlag (.ok v) = .known_value := rfl
@[simp] theorem sumFlag_neg : sumFlag (.err .negative_overflow_error) = .less_than_min := rfl
@[simp] theorem sumFlag_pos : sumFlag (.err .positive_overflow_error) = .greater_than_max := rfl

theorem describes_vague {R : ITy} {e : Err} {x : Int} (h0 : e ≠ .success) (h1 : e ≠ .positive_overflow_error)
    (h2 : e ≠ .negative_overflow_error) : Describes R (.err e) x := by
  cases e <;> first | contradiction | exact trivial

theorem Spec.Describes.near {R : ITy} {c : CR} {x : Int} (h : Describes R c x) : Near R c x := by
  rcases c with v | e
  · exact h
  · cases e <;> simp only [Describes, Near] at * <;> omega

theorem exactOr_describes {R : ITy} (v : Int) : Describes R (exactOr R.min R.max v) v := by
  unfold exactOr
  split_ifs with h1 h2
  · exact h1
  · exact h2
  · exact ⟨⟨by omega, by omega⟩, rfl⟩

section
variable [Arch]

theorem Vague.prodFlag {c : CR} (h : Vague c) (R : ITy) : prodFlag R c = .indeterminate := by
  obtain ⟨e, rfl, h1, h2⟩ := h
  cases e <;> first | rfl | contradiction

@[simp] theorem prodFlag_neg (R : ITy) : prodFlag R (.err .negative_overflow_error) = .less_than_min := rfl
@[simp] theorem prodFlag_pos (R : ITy) : prodFlag R (.err .positive_overflow_error) = .greater_than_max := rfl

theorem crLt_ok {R : ITy} {a b : Int} (ha : R.In a) (hb : R.In b) :
    crLt R (.ok a) (.ok b) = T3.ofBool (decide (a < b)) := by
  show T3.ofBool (cLt R R a b) = _
  rw [cLt_eq (in_uac_self ha) (in_uac_self hb)]

theorem crEq_ok {R : ITy} {a b : Int} (ha : R.In a) (hb : R.In b) :
    crEq R (.ok a) (.ok b) = T3.ofBool (decide (a = b)) := by
  show T3.ofBool (cEq R R a b) = _
  rw [cEq_eq (in_uac_self ha) (in_uac_self hb)]

omit [Arch] in
@[simp] theorem toBool_ofBool (b : Bool) : (T3.ofBool b).toBool = b := by cases b <;> rfl

theorem prodFlag_ok {R : ITy} {a : Int} (ha : R.In a) :
    prodFlag R (.ok a) =
      if a < 0 then .less_than_zero else if 0 < a then .greater_than_zero else .zero := by
  unfold prodFlag crGt
  rw [crLt_ok ha R.in_zero, crLt_ok R.in_zero ha]
  simp

theorem make_add {R : ITy} {t u : Int} (ht : R.In t) (hu : R.In u) :
    add R make t u = .ret (exactOr R.min R.max (t + u)) := by
  rw [add_eq ht hu]; unfold exactOr; split_ifs <;> rfl
theorem make_sub {R : ITy} {t u : Int} (ht : R.In t) (hu : R.In u) :
    subtract R make t u = .ret (exactOr R.min R.max (t - u)) := by
  rw [subtract_eq ht hu]; unfold exactOr; split_ifs <;> rfl
theorem make_mul {R : ITy} (hR : R.Ok) {t u : Int} (ht : R.In t) (hu : R.In u) :
    multiply R make t u = .ret (exactOr R.min R.max (t * u)) := by
  rw [multiply_eq hR ht hu]; unfold exactOr; split_ifs <;> rfl

theorem crAdd_ok {R : ITy} {t u : Int} (ht : R.In t) (hu : R.In u) :
    crAdd R (.ok t) (.ok u) = .ret (exactOr R.min R.max (t + u)) := make_add ht hu
theorem crSub_ok {R : ITy} {t u : Int} (ht : R.In t) (hu : R.In u) :
    crSub R (.ok t) (.ok u) = .ret (exactOr R.min R.max (t - u)) := make_sub ht hu
theorem crNeg_ok {R : ITy} {t : Int} (ht : R.In t) :
    crNeg R (.ok t) = .ret (exactOr R.min R.max (-t)) := by
  unfold crNeg; rw [crSub_ok R.in_zero ht]; simp

theorem crMul_ok {R : ITy} (hR : R.Ok) {t u : Int} (ht : R.In t) (hu : R.In u) :
    crMul R (.ok t) (.ok u) = .ret (exactOr R.min R.max (t * u)) := by
  have hz := R.min_nonpos; have hm := R.max_ge
  unfold crMul
  rw [prodFlag_ok ht, prodFlag_ok hu]
  have z : exactOr R.min R.max 0 = .ok 0 := by
    unfold exactOr; rw [if_neg (by omega), if_neg (by omega)]
  have go : ∀ f, (do let a ← (CR.ok t).value; let b ← (CR.ok u).value; multiply R make a b : Out CR)
      = f → f = .ret (exactOr R.min R.max (t * u)) := fun f h => h ▸ make_mul hR ht hu
  rcases Int.lt_trichotomy t 0 with h1 | h1 | h1 <;> rcases Int.lt_trichotomy u 0 with h2 | h2 | h2 <;>
    first
    | (subst h1; simp only [Int.zero_mul, z]; simp [show ¬ u < 0 by omega, h2, mulTable, PFlag.row])
    | (subst h1; simp only [Int.zero_mul, z]; simp [h2, mulTable, PFlag.row])
    | (subst h2; simp only [Int.mul_zero, z]; simp [show ¬ t < 0 by omega, h1, mulTable, PFlag.row])
    | (subst h2; simp only [Int.mul_zero, z]; simp [h1, mulTable, PFlag.row])
    | (simp only [h1, h2, show ¬ t < 0 by omega, show ¬ u < 0 by omega, if_true, if_false, mulTable, PFlag.row]
       exact go _ rfl)
    | (simp only [h1, h2, show ¬ t < 0 by omega, if_true, if_false, mulTable, PFlag.row]
       exact go _ rfl)
    | (simp only [h1, h2, show ¬ u < 0 by omega, if_true, if_false, mulTable, PFlag.row]
       exact go _ rfl)
    | (simp only [h1, h2, if_true, mulTable, PFlag.row]
       exact go _ rfl)

theorem crAdd_vague {R : ITy} {t u : CR} (h : Vague t ∨ Vague u) : crAdd R t u = .ret (.err .range_error) := by
  unfold crAdd
  have : addTable (sumFlag t) (sumFlag u) = .range_error := by
    rcases h with h | h <;> rw [h.sumFlag]
    · cases sumFlag u <;> rfl
    · cases sumFlag t <;> rfl
  rw [this]; rfl

theorem crSub_vague {R : ITy} {t u : CR} (h : Vague t ∨ Vague u) : crSub R t u = .ret (.err .range_error) := by
  unfold crSub
  have : subTable (sumFlag t) (sumFlag u) = .range_error := by
    rcases h with h | h <;> rw [h.sumFlag]
    · cases sumFlag u <;> rfl
    · cases sumFlag t <;> rfl
  rw [this]; rfl

theorem crMul_vague {R : ITy} {t u : CR} (h : Vague t ∨ Vague u) : crMul R t u = .ret (.err .range_error) := by
  unfold crMul
  have : mulTable (prodFlag R t) (prodFlag R u) = .indeterminate := by
    rcases h with h | h <;> rw [h.prodFlag]
    · cases prodFlag R u <;> rfl
    · cases prodFlag R t <;> rfl
  rw [this]; rfl

theorem crDiv_vague {R : ITy} {t u : CR} (h : Vague t ∨ Vague u) : crDiv R t u = .ret (.err .range_error) := by
  unfold crDiv
  have : divTable (prodFlag R t) (prodFlag R u) = .indeterminate := by
    rcases h with h | h <;> rw [h.prodFlag]
    · cases prodFlag R u <;> rfl
    · cases prodFlag R t <;> rfl
  rw [this]; rfl

/-- the value of `crMul` when an operand is an overflow marker -/
theorem crMul_neg_ok {R : ITy} {a : Int} (ha : R.In a) : crMul R (.err .negative_overflow_error) (.ok a) =
    .ret (if a < 0 then .err .positive_overflow_error else if 0 < a then .err .negative_overflow_error else .ok 0) := by
  unfold crMul; rw [prodFlag_ok ha]; split_ifs <;> rfl
theorem crMul_ok_neg {R : ITy} {a : Int} (ha : R.In a) : crMul R (.ok a) (.err .negative_overflow_error) =
    .ret (if a < 0 then .err .positive_overflow_error else if 0 < a then .err .negative_overflow_error else .ok 0) := by
  unfold crMul; rw [prodFlag_ok ha]; split_ifs <;> rfl
theorem crMul_pos_ok {R : ITy} {a : Int} (ha : R.In a) : crMul R (.err .positive_overflow_error) (.ok a) =
    .ret (if a < 0 then .err .negative_overflow_error else if 0 < a then .err .positive_overflow_error else .ok 0) := by
  unfold crMul; rw [prodFlag_ok ha]; split_ifs <;> rfl
theorem crMul_ok_pos {R : ITy} {a : Int} (ha : R.In a) : crMul R (.ok a) (.err .positive_overflow_error) =
    .ret (if a < 0 then .err .negative_overflow_error else if 0 < a then .err .positive_overflow_error else .ok 0) := by
  unfold crMul; rw [prodFlag_ok ha]; split_ifs <;> rfl

omit [Arch] in
theorem mul_neg_gt {a y m : Int} (ha : a < 0) (hy : y < -m - 1) (hm : 0 ≤ m) : m < a * y := by nlinarith
omit [Arch] in
theorem mul_pos_gt {a y m : Int} (ha : 0 < a) (hy : m < y) (hm : 0 ≤ m) : m < a * y := by nlinarith
omit [Arch] in
theorem mul_pos_lt {a y m : Int} (ha : 0 < a) (hy : y < m) (hm : m ≤ 0) : a * y < m := by nlinarith

/-- products of described values: markers are right up to the extreme value itself; they are exactly right
except for `-1 * (max + 1)` -/
theorem crMul_near {R : ITy} (hR : R.Ok) {t u : CR} {x y : Int} (ht : Describes R t x) (hu : Describes R u y)
    (hs : R.signed = true ∨ ¬ (t = .err .negative_overflow_error ∧ u = .err .negative_overflow_error)) :
    ∃ c, crMul R t u = .ret c ∧ Near R c (x * y) ∧
      (¬ (t = .ok (-1) ∧ u = .err .positive_overflow_error ∧ y = R.max + 1) →
       ¬ (u = .ok (-1) ∧ t = .err .positive_overflow_error ∧ x = R.max + 1) → Describes R c (x * y)) := by
  have hz := R.min_nonpos; have hm := R.max_ge
  have e := ITy.min_eq R
  have fin : ∀ {P Q : Prop} (c z), Describes R c z → Near R c z ∧ (P → Q → Describes R c z) :=
    fun c z h => ⟨h.near, fun _ _ => h⟩
  have sgn : ∀ {a : Int}, R.In a → a < 0 → R.min = -R.max - 1 := fun ha h => by
    have := ha.1; split at e <;> omega
  -- negative times too big
  have edge : ∀ {a z : Int}, R.In a → a < 0 → R.max < z → a * z ≤ R.min ∧ (¬ (a = -1 ∧ z = R.max + 1) → a * z < R.min) := by
    intro a z ha h0 hz'
    have := sgn ha h0
    refine ⟨by nlinarith, fun hne => ?_⟩
    by_cases h1 : a = -1
    · subst h1; omega
    · nlinarith [show a ≤ -2 by omega]
  rcases t.cases4 with ⟨a, rfl⟩ | rfl | rfl | hv
  · obtain ⟨ha, rfl⟩ := ht
    rcases u.cases4 with ⟨b, rfl⟩ | rfl | rfl | hv
    · obtain ⟨hb, rfl⟩ := hu
      exact ⟨_, crMul_ok hR ha hb, fin _ _ (exactOr_describes _)⟩
    · have hu : y < R.min := hu
      refine ⟨_, crMul_ok_neg ha, fin _ _ ?_⟩
      split_ifs with h1 h2
      · have := sgn ha h1
        exact mul_neg_gt h1 (by omega) (by omega)
      · exact mul_pos_lt h2 hu hz
      · obtain rfl : x = 0 := by omega
        rw [Int.zero_mul]; exact ⟨R.in_zero, rfl⟩
    · have hu : R.max < y := hu
      refine ⟨_, crMul_ok_pos ha, ?_⟩
      split_ifs with h1 h2
      · obtain ⟨e1, e2⟩ := edge ha h1 hu
        exact ⟨e1, fun h _ => e2 (fun h' => h ⟨by rw [h'.1], rfl, h'.2⟩)⟩
      · apply fin; exact mul_pos_gt h2 hu (by omega)
      · obtain rfl : x = 0 := by omega
        rw [Int.zero_mul]; apply fin; exact ⟨R.in_zero, rfl⟩
    · exact ⟨_, crMul_vague (Or.inr hv), fin _ _ trivial⟩
  · have ht : x < R.min := ht
    rcases u.cases4 with ⟨b, rfl⟩ | rfl | rfl | hv
    · obtain ⟨hb, rfl⟩ := hu
      refine ⟨_, crMul_neg_ok hb, fin _ _ ?_⟩
      rw [Int.mul_comm]
      split_ifs with h1 h2
      · have := sgn hb h1
        exact mul_neg_gt h1 (by omega) (by omega)
      · exact mul_pos_lt h2 ht hz
      · obtain rfl : y = 0 := by omega
        rw [Int.zero_mul]; exact ⟨R.in_zero, rfl⟩
    · have hu : y < R.min := hu
      have hs : R.signed = true := by simpa using hs
      rw [hs, if_pos rfl] at e
      exact ⟨_, rfl, fin _ _ (mul_neg_gt (by omega) (by omega) (by omega))⟩
    · have hu : R.max < y := hu
      refine ⟨_, rfl, fin _ _ ?_⟩
      rw [Int.mul_comm]
      exact mul_pos_lt (by omega) ht hz
    · exact ⟨_, crMul_vague (Or.inr hv), fin _ _ trivial⟩
  · have ht : R.max < x := ht
    rcases u.cases4 with ⟨b, rfl⟩ | rfl | rfl | hv
    · obtain ⟨hb, rfl⟩ := hu
      refine ⟨_, crMul_pos_ok hb, ?_⟩
      rw [Int.mul_comm]
      split_ifs with h1 h2
      · obtain ⟨e1, e2⟩ := edge hb h1 ht
        exact ⟨e1, fun _ h => e2 (fun h' => h ⟨by rw [h'.1], rfl, h'.2⟩)⟩
      · apply fin; exact mul_pos_gt h2 ht (by omega)
      · obtain rfl : y = 0 := by omega
        rw [Int.zero_mul]; apply fin; exact ⟨R.in_zero, rfl⟩
    · have hu : y < R.min := hu
      exact ⟨_, rfl, fin _ _ (mul_pos_lt (by omega) hu hz)⟩
    · have hu : R.max < y := hu
      exact ⟨_, rfl, fin _ _ (mul_pos_gt (by omega) hu (by omega))⟩
    · exact ⟨_, crMul_vague (Or.inr hv), fin _ _ trivial⟩
  · exact ⟨_, crMul_vague (Or.inl hv), fin _ _ trivial⟩

theorem crLt_sound {R : ITy} {t u : CR} {x y : Int} (ht : Describes R t x) (hu : Describes R u y) :
    (crLt R t u = .tt → x < y) ∧ (crLt R t u = .ff → ¬ x < y) := by
  have hm := R.min_le_max
  rcases t.cases4 with ⟨a, rfl⟩ | rfl | rfl | hv
  · obtain ⟨ha, rfl⟩ := ht
    have := ha.1; have := ha.2
    rcases u.cases4 with ⟨b, rfl⟩ | rfl | rfl | hv
    · obtain ⟨hb, rfl⟩ := hu
      rw [crLt_ok ha hb]
      by_cases h : x < y <;> simp [h, T3.ofBool]
    · have hu : y < R.min := hu
      simp [crLt, ltTable, SFlag.row]; omega
    · have hu : R.max < y := hu
      simp [crLt, ltTable, SFlag.row]; omega
    · obtain ⟨e, rfl, _⟩ := id hv
      simp [crLt, hv.sumFlag, ltTable, SFlag.row]
  · have ht : x < R.min := ht
    rcases u.cases4 with ⟨b, rfl⟩ | rfl | rfl | hv
    · obtain ⟨hb, rfl⟩ := hu
      have := hb.1
      simp [crLt, ltTable, SFlag.row]; omega
    · simp [crLt, ltTable, SFlag.row]
    · have hu : R.max < y := hu
      simp [crLt, ltTable, SFlag.row]; omega
    · simp [crLt, hv.sumFlag, ltTable, SFlag.row]
  · have ht : R.max < x := ht
    rcases u.cases4 with ⟨b, rfl⟩ | rfl | rfl | hv
    · obtain ⟨hb, rfl⟩ := hu
      have := hb.2
      simp [crLt, ltTable, SFlag.row]; omega
    · have hu : y < R.min := hu
      simp [crLt, ltTable, SFlag.row]; omega
    · simp [crLt, ltTable, SFlag.row]
    · simp [crLt, hv.sumFlag, ltTable, SFlag.row]
  · obtain ⟨e, rfl, _⟩ := id hv
    simp only [crLt, hv.sumFlag, ltTable]
    cases sumFlag u <;> simp [SFlag.row]

theorem crEq_sound {R : ITy} {t u : CR} {x y : Int} (ht : Describes R t x) (hu : Describes R u y) :
    (crEq R t u = .tt → x = y) ∧ (crEq R t u = .ff → ¬ x = y) := by
  have hm := R.min_le_max
  rcases t.cases4 with ⟨a, rfl⟩ | rfl | rfl | hv
  · obtain ⟨ha, rfl⟩ := ht
    have := ha.1; have := ha.2
    rcases u.cases4 with ⟨b, rfl⟩ | rfl | rfl | hv
    · obtain ⟨hb, rfl⟩ := hu
      rw [crEq_ok ha hb]
      by_cases h : x = y <;> simp [h, T3.ofBool]
    · have hu : y < R.min := hu
      simp [crEq, eqTable, SFlag.row]; omega
    · have hu : R.max < y := hu
      simp [crEq, eqTable, SFlag.row]; omega
    · obtain ⟨e, rfl, _⟩ := id hv
      simp [crEq, hv.sumFlag, eqTable, SFlag.row]
  · have ht : x < R.min := ht
    rcases u.cases4 with ⟨b, rfl⟩ | rfl | rfl | hv
    · obtain ⟨hb, rfl⟩ := hu
      have := hb.1
      simp [crEq, eqTable, SFlag.row]; omega
    · simp [crEq, eqTable, SFlag.row]
    · have hu : R.max < y := hu
      simp [crEq, eqTable, SFlag.row]; omega
    · simp [crEq, hv.sumFlag, eqTable, SFlag.row]
  · have ht : R.max < x := ht
    rcases u.cases4 with ⟨b, rfl⟩ | rfl | rfl | hv
    · obtain ⟨hb, rfl⟩ := hu
      have := hb.2
      simp [crEq, eqTable, SFlag.row]; omega
    · have hu : y < R.min := hu
      simp [crEq, eqTable, SFlag.row]; omega
    · simp [crEq, eqTable, SFlag.row]
    · simp [crEq, hv.sumFlag, eqTable, SFlag.row]
  · obtain ⟨e, rfl, _⟩ := id hv
    simp only [crEq, hv.sumFlag, eqTable]
    cases sumFlag u <;> simp [SFlag.row]

end
end Verif
