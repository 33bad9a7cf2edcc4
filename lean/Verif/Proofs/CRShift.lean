import Verif.Proofs.CROps

/-! Division and shifts of extended integers. -/

namespace Verif
open Spec

section
variable [Arch]

theorem prodFlag_lt {R : ITy} {a : Int} (ha : R.In a) (h : a < 0) : prodFlag R (.ok a) = .less_than_zero := by
  rw [prodFlag_ok ha, if_pos h]
theorem prodFlag_gt {R : ITy} {a : Int} (ha : R.In a) (h : 0 < a) : prodFlag R (.ok a) = .greater_than_zero := by
  rw [prodFlag_ok ha, if_neg (by omega), if_pos h]
theorem prodFlag_zero {R : ITy} : prodFlag R (.ok 0) = .zero := by
  rw [prodFlag_ok R.in_zero]; rfl

theorem make_div {R : ITy} {t u : Int} (ht : R.In t) (hu : R.In u) (h0 : u ≠ 0) :
    divide R make t u = .ret (if R.max < t.tdiv u then .err .positive_overflow_error else .ok (t.tdiv u)) := by
  rw [divide_eq ht hu, if_neg h0]; split_ifs <;> rfl

theorem crDiv_ok {R : ITy} {t u : Int} (ht : R.In t) (hu : R.In u) (h0 : u ≠ 0) :
    crDiv R (.ok t) (.ok u) =
      .ret (if R.max < t.tdiv u then .err .positive_overflow_error else .ok (t.tdiv u)) := by
  have hm := R.max_ge
  unfold crDiv
  rcases Int.lt_or_gt_of_ne h0 with h2 | h2
  · rw [prodFlag_lt hu h2]
    rcases Int.lt_trichotomy t 0 with h1 | h1 | h1
    · rw [prodFlag_lt ht h1]; exact make_div ht hu h0
    · subst h1; rw [prodFlag_zero, Int.zero_tdiv, if_neg (by omega)]; rfl
    · rw [prodFlag_gt ht h1]; exact make_div ht hu h0
  · rw [prodFlag_gt hu h2]
    rcases Int.lt_trichotomy t 0 with h1 | h1 | h1
    · rw [prodFlag_lt ht h1]; exact make_div ht hu h0
    · subst h1; rw [prodFlag_zero, Int.zero_tdiv, if_neg (by omega)]; rfl
    · rw [prodFlag_gt ht h1]; exact make_div ht hu h0

/-- a known numerator divided by an overflow marker is zero -/
theorem crDiv_ok_marker {R : ITy} {t : Int} (ht : R.In t) :
    crDiv R (.ok t) (.err .negative_overflow_error) = .ret (.ok 0) ∧
    crDiv R (.ok t) (.err .positive_overflow_error) = .ret (.ok 0) := by
  unfold crDiv
  rw [prodFlag_ok ht]
  constructor <;> split_ifs <;> rfl

omit [Arch] in
theorem tdiv_eq_zero_of_abs {a b : Int} (h1 : a < b ∨ a < -b) (h2 : -a < b ∨ -a < -b) (h3 : a < b ∨ -a < -b)
    (h4 : a < -b ∨ -a < b) : a.tdiv b = 0 := by
  have h : a.natAbs < b.natAbs := by omega
  rw [← Int.natAbs_eq_zero, Int.natAbs_tdiv]
  exact Nat.div_eq_of_lt h

theorem crLt_toBool {R : ITy} {a b : Int} (ha : R.In a) (hb : R.In b) :
    (crLt R (.ok a) (.ok b)).toBool = decide (a < b) := by rw [crLt_ok ha hb, toBool_ofBool]

/-- `t << u` for non-negative operands -/
theorem crShl_pp {R : ITy} (hR : R.Ok) {t u : Int} (ht : R.In t) (hu : R.In u) (h1 : 0 < t) (h2 : 0 ≤ u) (n : Nat) :
    crShift (n + 1) true R (.ok t) (.ok u) =
      .ret (if R.max < t * 2 ^ u.toNat then .err .positive_overflow_error else .ok (t * 2 ^ u.toNat)) := by
  have hz := R.min_nonpos; have htm := ht.2
  rcases Int.lt_or_eq_of_le h2 with h2 | h2
  · unfold crShift
    rw [prodFlag_gt ht h1, prodFlag_gt hu h2]
    simp only [if_true, shlTable, PFlag.row, crGt, crLt_toBool R.in_zero ht, crLt_toBool R.in_zero hu, h1, h2,
      decide_true, assertThat, CR.value, Out.ret_bind]
    rw [leftShift_eq hR ht hu]
    have hmx : R.max = 2 ^ R.digits - 1 := rfl
    have hs := sbits_pos t
    rw [if_neg (by omega), if_neg (by omega), if_neg (show ¬ t < 0 by omega)]
    by_cases hb : (R.digits : Int) - sbits t < u
    · have := shl_overflows (d := R.digits) h1 (by omega) hb
      rw [if_pos (show R.max < t * 2 ^ u.toNat by omega)]
      split_ifs <;> rfl
    · have hf := shl_fits (d := R.digits) (by omega) (by omega) (show u ≤ (R.digits : Int) - sbits t by omega)
      rw [if_neg (by omega), if_neg hb, if_neg (show ¬ R.max < t * 2 ^ u.toNat by omega)]
      rfl
  · subst h2
    unfold crShift
    rw [prodFlag_gt ht h1, prodFlag_zero]
    simp only [if_true, shlTable, PFlag.row]
    rw [if_neg (by simp; omega)]; simp

/-- `t >> u` for non-negative operands -/
theorem crShr_pp {R : ITy} (hR : R.Ok) {t u : Int} (ht : R.In t) (hu : R.In u) (h1 : 0 ≤ t) (h2 : 0 ≤ u)
    (hub : ¬ (R.signed = false ∧ Arch.intLg ≤ R.lg ∧ u = R.bits ∧ 0 < t)) (n : Nat) :
    crShift (n + 1) false R (.ok t) (.ok u) = .ret (.ok (t / 2 ^ u.toNat)) := by
  rcases Int.lt_or_eq_of_le h1 with h1 | h1
  · rcases Int.lt_or_eq_of_le h2 with h2 | h2
    · unfold crShift
      rw [prodFlag_gt ht h1, prodFlag_gt hu h2]
      simp only [shrTable, PFlag.row, crGt, crLt_toBool R.in_zero ht, crLt_toBool R.in_zero hu, h1, h2,
        decide_true, assertThat, CR.value, Out.ret_bind, Bool.false_eq_true, if_false, if_true]
      rw [rightShift_eq hR ht hu, if_neg (show ¬ u < 0 by omega), if_neg (show ¬ t < 0 by omega),
        if_neg (show ¬ (R.signed = false ∧ Arch.intLg ≤ R.lg ∧ u = R.bits) from
          fun h => hub ⟨h.1, h.2.1, h.2.2, h1⟩)]
      by_cases hd : (R.digits : Int) < u
      · rw [if_pos hd]
        have hmx : R.max = 2 ^ R.digits - 1 := rfl
        have := ht.2
        have h3 := two_pow_le (show R.digits ≤ u.toNat by omega)
        rw [Int.ediv_eq_zero_of_lt (by omega) (by omega)]
        rfl
      · rw [if_neg hd]; rfl
    · subst h2
      unfold crShift
      rw [prodFlag_gt ht h1, prodFlag_zero]
      simp [shrTable, PFlag.row]
  · subst h1
    unfold crShift
    rw [prodFlag_zero]
    cases prodFlag R (.ok u) <;> simp [shrTable, PFlag.row]

omit [Arch] in
theorem exactOr_of_in {lo hi v : Int} (h1 : lo ≤ v) (h2 : v ≤ hi) : exactOr lo hi v = .ok v := by
  unfold exactOr; rw [if_neg (by omega), if_neg (by omega)]

omit [Arch] in
theorem exactOr_gt {lo hi v : Int} (h1 : hi < v) : exactOr lo hi v = .err .positive_overflow_error := by
  unfold exactOr; rw [if_pos (by omega)]

omit [Arch] in
theorem exactOr_lt {lo hi v : Int} (h1 : v < lo) (h : lo ≤ hi) : exactOr lo hi v = .err .negative_overflow_error := by
  unfold exactOr; rw [if_neg (by omega), if_pos (by omega)]

omit [Arch] in
theorem pow_pred {u : Int} (h : 0 < u) : (2 : Int) ^ u.toNat = 2 * 2 ^ (u - 1).toNat := by
  rw [← two_pow_succ']; congr 1; omega

omit [Arch] in
theorem neg_signed {R : ITy} {a : Int} (ha : R.In a) (h : a < 0) : R.signed = true ∧ R.min = -R.max - 1 := by
  have := ha.1; have e := ITy.min_eq R
  rcases hs : R.signed with _ | _
  · rw [hs] at e; simp at e; omega
  · rw [hs, if_pos rfl] at e; exact ⟨rfl, e⟩

/-- `t << u` for negative `t` and positive `u` -/
theorem crShl_np {R : ITy} (hR : R.Ok) {t u : Int} (ht : R.In t) (hu : R.In u) (h1 : t < 0) (h2 : 0 < u) (n : Nat) :
    crShift (n + 2) true R (.ok t) (.ok u) =
      .ret (if t * 2 ^ u.toNat ≤ R.min then .err .negative_overflow_error else .ok (t * 2 ^ u.toNat)) := by
  obtain ⟨hs, e⟩ := neg_signed ht h1
  have hm := R.max_ge; have htm := ht.1; have hu2 := hu.2
  have hpow := one_le_two_pow (u - 1).toNat
  have hu1 : R.In (u - 1) := ⟨by omega, by omega⟩
  unfold crShift
  rw [prodFlag_lt ht h1, prodFlag_gt hu h2]
  simp only [if_true, shlTable, PFlag.row, crGt, crLt_toBool ht R.in_zero, crLt_toBool R.in_zero hu, h1, h2,
    decide_true, assertThat, Out.ret_bind]
  rw [crMul_ok hR ht (R.in_small (by decide) (by decide)), crSub_ok hu R.in_one, Out.ret_bind, Out.ret_bind,
    exactOr_of_in hu1.1 hu1.2, pow_pred h2]
  rw [show t * (2 * 2 ^ (u - 1).toNat) = t * 2 * 2 ^ (u - 1).toNat by ring]
  -- the neg of the marker
  have hmark : ∀ v : Int, R.In v → 0 ≤ v →
      (do let s ← crShift (n + 1) true R (.err .positive_overflow_error) (.ok v); crNeg R s) =
        .ret (.err .negative_overflow_error) := by
    intro v hv hv0
    unfold crShift
    rw [prodFlag_ok hv, if_neg (show ¬ v < 0 by omega)]
    split_ifs <;> rfl
  by_cases hlo : t * 2 < R.min
  · rw [exactOr_lt hlo (by omega)]
    rw [if_pos (by nlinarith)]
    exact hmark _ hu1 (by omega)
  · have ht2 : R.In (t * 2) := ⟨by omega, by omega⟩
    rw [exactOr_of_in ht2.1 ht2.2, crNeg_ok ht2, Out.ret_bind]
    by_cases hmn : t * 2 = R.min
    · rw [exactOr_gt (by omega), if_pos (by nlinarith)]
      exact hmark _ hu1 (by omega)
    · have hin : R.In (-(t * 2)) := ⟨by omega, by omega⟩
      rw [exactOr_of_in hin.1 hin.2, crShl_pp hR hin hu1 (by omega) (by omega), Out.ret_bind]
      rw [Int.neg_mul]
      by_cases hbig : R.max < -(t * 2 * 2 ^ (u - 1).toNat)
      · rw [if_pos hbig, if_pos (by omega)]; rfl
      · have hpos : t * 2 * 2 ^ (u - 1).toNat ≤ 0 := by nlinarith
        rw [if_neg hbig, if_neg (by omega), crNeg_ok ⟨by omega, by omega⟩, Int.neg_neg,
          exactOr_of_in (by omega) (by omega)]

/-- `t >> u` for negative `t` and positive `u` -/
theorem crShr_np {R : ITy} (hR : R.Ok) {t u : Int} (ht : R.In t) (hu : R.In u) (h1 : t < 0) (h2 : 0 < u) (n : Nat) :
    crShift (n + 2) false R (.ok t) (.ok u) = .ret (.ok (t.tdiv (2 ^ u.toNat))) := by
  obtain ⟨hs, e⟩ := neg_signed ht h1
  have hm := R.max_ge; have htm := ht.1; have hu2 := hu.2
  have hu1 : R.In (u - 1) := ⟨by omega, by omega⟩
  have hb := tdiv_neg_pos_bounds (a := t) (b := 2) (by omega) (by decide)
  unfold crShift
  rw [prodFlag_lt ht h1, prodFlag_gt hu h2]
  simp only [shrTable, PFlag.row, crGt, crLt_toBool ht R.in_zero, crLt_toBool R.in_zero hu, h1, h2,
    decide_true, assertThat, Out.ret_bind, Bool.false_eq_true, if_false, if_true]
  rw [crDiv_ok ht (R.in_small (by decide) (by decide)) (by decide), crSub_ok hu R.in_one, Out.ret_bind, Out.ret_bind,
    exactOr_of_in hu1.1 hu1.2, if_neg (by omega), crNeg_ok ⟨by omega, by omega⟩, Out.ret_bind]
  have h2' : -(t.tdiv 2) = (-t) / 2 := by
    rw [← Int.neg_tdiv, Int.tdiv_eq_ediv_of_nonneg (by omega)]
  have hin : R.In (-(t.tdiv 2)) := ⟨by omega, by omega⟩
  rw [exactOr_of_in hin.1 hin.2, crShr_pp hR hin hu1 (by omega) (by omega) (by simp [hs]), Out.ret_bind, h2']
  have hd : (-t) / 2 / 2 ^ (u - 1).toNat = (-t) / 2 ^ u.toNat := by
    rw [pow_pred h2, Int.ediv_ediv_of_nonneg (by decide)]
  have hd0 : 0 ≤ (-t) / 2 ^ u.toNat := Int.ediv_nonneg (by omega) (Int.le_of_lt (two_pow_pos _))
  have hd1 : (-t) / 2 ^ u.toNat ≤ (-t) / 2 := by
    rw [← hd]; exact Int.ediv_le_self _ (by omega)
  rw [hd, crNeg_ok ⟨by omega, by omega⟩, exactOr_of_in (by omega) (by omega)]
  congr 2
  rw [← Int.tdiv_eq_ediv_of_nonneg (by omega), Int.neg_tdiv, Int.neg_neg]

omit [Arch] in
theorem lt_two_pow_toNat {k : Int} (h : 0 ≤ k) : k < 2 ^ k.toNat := by
  have : k.toNat < 2 ^ k.toNat := Nat.lt_two_pow_self
  have h2 : ((k.toNat : Nat) : Int) < ((2 ^ k.toNat : Nat) : Int) := by exact_mod_cast this
  push_cast at h2
  omega

omit [Arch] in
theorem tdiv_big {t k : Int} {m : Int} (h1 : -m - 1 ≤ t) (h2 : t ≤ m) (hk : m < k) (hm : 0 ≤ m) : t.tdiv (2 ^ k.toNat) = 0 := by
  have := lt_two_pow_toNat (k := k) (by omega)
  exact tdiv_eq_zero_of_abs (by omega) (by omega) (by omega) (by omega)

/-- closed form of `<<` on values -/
theorem crShl_ok {R : ITy} (hR : R.Ok) {t u : Int} (ht : R.In t) (hu : R.In u) (n : Nat) :
    crShift (n + 3) true R (.ok t) (.ok u) =
      .ret (if R.max < scale t u then .err .positive_overflow_error
        else if t < 0 ∧ 0 < u ∧ scale t u ≤ R.min then .err .negative_overflow_error else .ok (scale t u)) := by
  have hm := R.max_ge; have hz := R.min_nonpos
  have ht1 := ht.1; have ht2 := ht.2; have hu1 := hu.1; have hu2 := hu.2
  rcases Int.lt_trichotomy t 0 with h1 | h1 | h1
  · obtain ⟨hs, e⟩ := neg_signed ht h1
    rcases Int.lt_trichotomy u 0 with h2 | h2 | h2
    · -- t << u = t >> -u
      have hsc : scale t u = t.tdiv (2 ^ (-u).toNat) := by unfold scale; rw [if_neg (by omega)]
      have hb := tdiv_neg_pos_bounds (a := t) (b := 2 ^ (-u).toNat) (by omega) (two_pow_pos _)
      rw [hsc, if_neg (by omega), if_neg (by omega)]
      unfold crShift
      rw [prodFlag_lt ht h1, prodFlag_lt hu h2]
      simp only [if_true, shlTable, PFlag.row, crLt_toBool ht R.in_zero, crLt_toBool hu R.in_zero, h1, h2,
        decide_true, assertThat, Out.ret_bind, Bool.not_true]
      rw [crNeg_ok hu, Out.ret_bind]
      by_cases hum : u = R.min
      · rw [exactOr_gt (by omega)]
        rw [tdiv_big (m := R.max) (by omega) (by omega) (by omega) (by omega)]
        unfold crShift
        rw [prodFlag_lt ht h1]; rfl
      · rw [exactOr_of_in (by omega) (by omega)]
        exact crShr_np hR ht ⟨by omega, by omega⟩ h1 (by omega) n
    · subst h2
      have hsc : scale t 0 = t := by unfold scale; simp
      rw [hsc, if_neg (by omega), if_neg (by omega)]
      unfold crShift
      rw [prodFlag_lt ht h1, prodFlag_zero]; rfl
    · have hsc : scale t u = t * 2 ^ u.toNat := by unfold scale; rw [if_pos (by omega)]
      have hneg : t * 2 ^ u.toNat < 0 := Int.mul_neg_of_neg_of_pos h1 (two_pow_pos _)
      rw [hsc, if_neg (by omega), crShl_np hR ht hu h1 h2 (n + 1)]
      simp only [h1, h2, true_and]
  · subst h1
    have hsc : scale 0 u = 0 := by unfold scale; split_ifs <;> simp
    rw [hsc, if_neg (by omega), if_neg (by omega)]
    unfold crShift
    rw [prodFlag_zero]
    cases prodFlag R (.ok u) <;> rfl
  · rw [if_neg (show ¬ (t < 0 ∧ 0 < u ∧ scale t u ≤ R.min) by omega)]
    rcases Int.lt_or_le u 0 with h2 | h2
    · obtain ⟨hs, e⟩ := neg_signed hu h2
      have hsc : scale t u = t.tdiv (2 ^ (-u).toNat) := by unfold scale; rw [if_neg (by omega)]
      have hb := tdiv_nonneg_bounds (a := t) (b := 2 ^ (-u).toNat) (by omega) (two_pow_pos _)
      rw [hsc, if_neg (by omega)]
      unfold crShift
      rw [prodFlag_gt ht h1, prodFlag_lt hu h2]
      simp only [if_true, shlTable, PFlag.row, crGt, crLt_toBool R.in_zero ht, crLt_toBool hu R.in_zero, h1, h2,
        decide_true, assertThat, Out.ret_bind, Bool.not_true]
      rw [crNeg_ok hu, Out.ret_bind]
      by_cases hum : u = R.min
      · rw [exactOr_gt (by omega)]
        rw [tdiv_big (m := R.max) (by omega) (by omega) (by omega) (by omega)]
        unfold crShift
        rw [prodFlag_gt ht h1]; rfl
      · rw [exactOr_of_in (by omega) (by omega),
          crShr_pp hR ht ⟨by omega, by omega⟩ (by omega) (by omega) (by simp [hs]) (n + 1),
          Int.tdiv_eq_ediv_of_nonneg (by omega)]
    · have hsc : scale t u = t * 2 ^ u.toNat := by unfold scale; rw [if_pos (by omega)]
      rw [hsc, crShl_pp hR ht hu h1 h2 (n + 2)]

/-- closed form of `>>` on values -/
theorem crShr_ok {R : ITy} (hR : R.Ok) {t u : Int} (ht : R.In t) (hu : R.In u)
    (hub : ¬ (R.signed = false ∧ Arch.intLg ≤ R.lg ∧ u = R.bits ∧ 0 < t)) (n : Nat) :
    crShift (n + 3) false R (.ok t) (.ok u) =
      .ret (if R.max < scale t (-u) then .err .positive_overflow_error
        else if t < 0 ∧ u < 0 ∧ scale t (-u) ≤ R.min then .err .negative_overflow_error
        else .ok (scale t (-u))) := by
  have hm := R.max_ge; have hz := R.min_nonpos
  have ht1 := ht.1; have ht2 := ht.2; have hu1 := hu.1; have hu2 := hu.2
  rcases Int.lt_trichotomy t 0 with h1 | h1 | h1
  · obtain ⟨hs, e⟩ := neg_signed ht h1
    rcases Int.lt_trichotomy u 0 with h2 | h2 | h2
    · have hsc : scale t (-u) = t * 2 ^ (-u).toNat := by unfold scale; rw [if_pos (by omega)]
      have hneg : t * 2 ^ (-u).toNat < 0 := Int.mul_neg_of_neg_of_pos h1 (two_pow_pos _)
      rw [hsc, if_neg (by omega)]
      unfold crShift
      rw [prodFlag_lt ht h1, prodFlag_lt hu h2]
      simp only [shrTable, PFlag.row, crLt_toBool ht R.in_zero, crLt_toBool hu R.in_zero, h1, h2,
        decide_true, assertThat, Out.ret_bind, Bool.not_false, Bool.false_eq_true, if_false, if_true, true_and]
      rw [crNeg_ok hu, Out.ret_bind]
      by_cases hum : u = R.min
      · rw [exactOr_gt (by omega)]
        have := lt_two_pow_toNat (k := -u) (by omega)
        rw [if_pos (by nlinarith)]
        unfold crShift
        rw [prodFlag_lt ht h1]; rfl
      · rw [exactOr_of_in (by omega) (by omega)]
        exact crShl_np hR ht ⟨by omega, by omega⟩ h1 (by omega) n
    · subst h2
      have hsc : scale t (-0) = t := by unfold scale; simp
      rw [hsc, if_neg (by omega), if_neg (by omega)]
      unfold crShift
      rw [prodFlag_lt ht h1, prodFlag_zero]; rfl
    · have hsc : scale t (-u) = t.tdiv (2 ^ u.toNat) := by
        unfold scale; rw [if_neg (by omega), Int.neg_neg]
      have hb := tdiv_neg_pos_bounds (a := t) (b := 2 ^ u.toNat) (by omega) (two_pow_pos _)
      rw [hsc, if_neg (by omega), if_neg (by omega)]
      exact crShr_np hR ht hu h1 h2 (n + 1)
  · subst h1
    have hsc : scale 0 (-u) = 0 := by unfold scale; split_ifs <;> simp
    rw [hsc, if_neg (by omega), if_neg (by omega)]
    unfold crShift
    rw [prodFlag_zero]
    cases prodFlag R (.ok u) <;> rfl
  · rw [if_neg (show ¬ (t < 0 ∧ u < 0 ∧ scale t (-u) ≤ R.min) by omega)]
    rcases Int.lt_or_le u 0 with h2 | h2
    · obtain ⟨hs, e⟩ := neg_signed hu h2
      have hsc : scale t (-u) = t * 2 ^ (-u).toNat := by unfold scale; rw [if_pos (by omega)]
      rw [hsc]
      unfold crShift
      rw [prodFlag_gt ht h1, prodFlag_lt hu h2]
      simp only [shrTable, PFlag.row, crGt, crLt_toBool R.in_zero ht, crLt_toBool hu R.in_zero, h1, h2,
        decide_true, assertThat, Out.ret_bind, Bool.not_false, Bool.false_eq_true, if_false, if_true]
      rw [crNeg_ok hu, Out.ret_bind]
      by_cases hum : u = R.min
      · rw [exactOr_gt (by omega)]
        have := lt_two_pow_toNat (k := -u) (by omega)
        rw [if_pos (by nlinarith)]
        unfold crShift
        rw [prodFlag_gt ht h1]; rfl
      · rw [exactOr_of_in (by omega) (by omega),
          crShl_pp hR ht ⟨by omega, by omega⟩ (by omega) (by omega) (n + 1)]
    · have hsc : scale t (-u) = t / 2 ^ u.toNat := by
        unfold scale
        by_cases h0 : u = 0
        · subst h0; simp
        · rw [if_neg (by omega), Int.neg_neg, Int.tdiv_eq_ediv_of_nonneg (by omega)]
      have hb : t / 2 ^ u.toNat ≤ t := Int.ediv_le_self _ (by omega)
      rw [hsc, if_neg (by omega), crShr_pp hR ht hu (by omega) h2 hub (n + 2)]

end
end Verif
