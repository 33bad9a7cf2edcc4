import Verif.SafeCompare
import Verif.Proofs.Cpp

namespace Verif.SafeCompare
section
variable [Arch]

theorem cLt_zero {U : ITy} {u : Int} (hu : U.In u) : cLt U tInt u 0 = decide (u < 0) :=
  cLt_eq (by rw [uac_int_right]; exact in_promote hu) (ITy.in_zero _)

omit [Arch] in
theorem toUnsigned_in {U : ITy} {u : Int} (hu : U.In u) (h0 : 0 ≤ u) : U.toUnsigned.In u := by
  refine hu.widen_nonneg h0 ?_
  have := U.bits_pos
  unfold ITy.digits ITy.toUnsigned
  simp only [ITy.bits]
  split <;> simp

theorem uac_unsigned_in_left {T U : ITy} {t : Int} (h0 : 0 ≤ t) (ht : T.In t) : (uac T U).In t :=
  in_uac_left_nonneg h0 ht

theorem lessThan_eq {T U : ITy} {t u : Int} (ht : T.In t) (hu : U.In u) :
    lessThan T U t u = decide (t < u) := by
  unfold lessThan
  split
  · rename_i h1 h2
    exact cLt_eq (in_uac_left_signed h1 h2 ht) (in_uac_right_signed h1 h2 hu)
  · rename_i h1 h2
    exact cLt_eq (in_uac_left_nonneg (ht.nonneg h1) ht) (in_uac_right_nonneg (hu.nonneg h2) hu)
  · rename_i h1 h2
    have h0 := ht.nonneg h1
    rw [cLt_zero hu]
    by_cases hn : u < 0
    · simp [hn]; omega
    · have hu' := toUnsigned_in hu (by omega)
      simp only [hn, decide_false, Bool.false_eq_true, if_false]
      rw [conv_of_in hu']
      exact cLt_eq (in_uac_left_nonneg h0 ht) (in_uac_right_nonneg (by omega) hu')
  · rename_i h1 h2
    have h0 := hu.nonneg h2
    rw [cLt_zero ht]
    by_cases hn : t < 0
    · simp [hn]; omega
    · have ht' := toUnsigned_in ht (by omega)
      simp only [hn, decide_false, Bool.false_eq_true, if_false]
      rw [conv_of_in ht']
      exact cLt_eq (in_uac_left_nonneg (by omega) ht') (in_uac_right_nonneg h0 hu)

theorem greaterThan_eq {T U : ITy} {t u : Int} (ht : T.In t) (hu : U.In u) :
    greaterThan T U t u = decide (u < t) := lessThan_eq hu ht

theorem lessThanEqual_eq {T U : ITy} {t u : Int} (ht : T.In t) (hu : U.In u) :
    lessThanEqual T U t u = decide (t ≤ u) := by
  rw [lessThanEqual, greaterThan_eq ht hu, ← decide_not]
  exact decide_eq_decide.mpr (by omega)

theorem greaterThanEqual_eq {T U : ITy} {t u : Int} (ht : T.In t) (hu : U.In u) :
    greaterThanEqual T U t u = decide (u ≤ t) := by
  rw [greaterThanEqual, lessThan_eq ht hu, ← decide_not]
  exact decide_eq_decide.mpr (by omega)

theorem equal_eq {T U : ITy} {t u : Int} (ht : T.In t) (hu : U.In u) :
    equal T U t u = decide (t = u) := by
  unfold equal
  split
  · rename_i h1 h2
    exact cEq_eq (in_uac_left_signed h1 h2 ht) (in_uac_right_signed h1 h2 hu)
  · rename_i h1 h2
    exact cEq_eq (in_uac_left_nonneg (ht.nonneg h1) ht) (in_uac_right_nonneg (hu.nonneg h2) hu)
  · rename_i h1 h2
    have h0 := ht.nonneg h1
    rw [cLt_zero hu]
    by_cases hn : u < 0
    · simp [hn]; omega
    · have hu' := toUnsigned_in hu (by omega)
      simp only [hn, decide_false, Bool.false_eq_true, if_false]
      rw [conv_of_in hu']
      exact cEq_eq (in_uac_left_nonneg h0 ht) (in_uac_right_nonneg (by omega) hu')
  · rename_i h1 h2
    have h0 := hu.nonneg h2
    rw [cLt_zero ht]
    by_cases hn : t < 0
    · simp [hn]; omega
    · have ht' := toUnsigned_in ht (by omega)
      simp only [hn, decide_false, Bool.false_eq_true, if_false]
      rw [conv_of_in ht']
      exact cEq_eq (in_uac_left_nonneg (by omega) ht') (in_uac_right_nonneg h0 hu)

theorem notEqual_eq {T U : ITy} {t u : Int} (ht : T.In t) (hu : U.In u) :
    notEqual T U t u = decide (t ≠ u) := by
  rw [notEqual, equal_eq ht hu, ← decide_not]

end
end Verif.SafeCompare
