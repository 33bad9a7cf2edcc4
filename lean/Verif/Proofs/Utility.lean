import Verif.Utility
import Verif.Proofs.Bits

namespace Verif

/-- helper: number of significant bits of a mathematical integer -/
def sbits (t : Int) : Nat := 1 + (if t < 0 then (-t - 1).toNat.log2 else t.toNat.log2)

theorem sbits_pos (t : Int) : 1 ≤ sbits t := by unfold sbits; omega

theorem lt_two_pow_log2 (n : Nat) : n < 2 ^ (1 + n.log2) := by
  by_cases h : n = 0
  · subst h; decide
  · rw [Nat.add_comm]; exact ((Nat.log2_eq_iff h).mp rfl).2

theorem lt_two_pow_sbits {t : Int} (h : 0 ≤ t) : t < 2 ^ sbits t := by
  have := lt_two_pow_log2 t.toNat
  unfold sbits
  rw [if_neg (by omega)]
  zify at this
  rw [Int.toNat_of_nonneg h] at this
  exact this

theorem sbits_neg {t : Int} (h : t < 0) : sbits t = sbits (-t - 1) := by
  unfold sbits; rw [if_pos h, if_neg (by omega)]

theorem neg_two_pow_sbits_le {t : Int} (h : t < 0) : - 2 ^ sbits t ≤ t := by
  have := lt_two_pow_sbits (t := -t - 1) (by omega)
  rw [sbits_neg h]; omega

/-- minimality -/
theorem two_pow_sbits_le {t : Int} (h : 0 < t) : 2 ^ (sbits t - 1) ≤ t := by
  have h0 : t.toNat ≠ 0 := by omega
  have := ((Nat.log2_eq_iff h0).mp rfl).1
  unfold sbits
  rw [if_neg (by omega)]
  zify at this
  rw [Int.toNat_of_nonneg (by omega)] at this
  simpa using this

theorem sbits_le_of_lt {t : Int} {n : Nat} (hn : 1 ≤ n) (h0 : 0 ≤ t) (h : t < 2 ^ n) : sbits t ≤ n := by
  by_contra hc
  by_cases ht : t = 0
  · subst ht; simp [sbits] at hc; omega
  · have h1 := two_pow_sbits_le (t := t) (by omega)
    have h2 := two_pow_le (m := n) (n := sbits t - 1) (by omega)
    omega

section
variable [Arch]

theorem ok_lg {T : ITy} (h : T.Ok) : T.lg ≤ 4 := by
  have := Arch.max128; unfold ITy.Ok at h; omega

theorem ok_bits {T : ITy} (h : T.Ok) : T.bits ≤ 128 := by
  have := ITy.bits_le (T := T) (U := ⟨true, 4⟩) (ok_lg h)
  simpa [ITy.bits] using this

theorem tInt_max_ge : 32767 ≤ tInt.max := by
  have h1 : 15 ≤ tInt.digits := by
    have := ITy.bits_le (T := i16) (U := tInt) (by simpa [i16] using Arch.int16)
    have h2 := ITy.digits_signed (T := tInt) rfl
    have h3 : i16.bits = 16 := rfl
    omega
  have := two_pow_le h1
  unfold ITy.max; omega

theorem tUInt_max_ge : 65535 ≤ tUInt.max := by
  have h1 : 16 ≤ tUInt.digits := by
    have := ITy.bits_le (T := u16) (U := tUInt) (by simpa [u16, tUInt] using Arch.int16)
    have h2 := ITy.digits_unsigned (T := tUInt) rfl
    have h3 : u16.bits = 16 := rfl
    omega
  have := two_pow_le h1
  unfold ITy.max; omega

theorem tUInt_in {x : Int} (h0 : 0 ≤ x) (h : x ≤ 65535) : tUInt.In x := by
  have := tUInt_max_ge
  exact ⟨by rw [ITy.min_unsigned rfl]; exact h0, by omega⟩

theorem tInt_in {x : Int} (h0 : 0 ≤ x) (h : x ≤ 32767) : tInt.In x := by
  have := tInt_max_ge
  have := tInt.min_nonpos
  exact ⟨by omega, by omega⟩

omit [Arch] in
theorem logTable_spec : ∀ n : Fin 256, n.val ≠ 0 →
    logTable256[n.val]? = some ((Nat.log2 n.val : Nat) : Int) := by decide +kernel

omit [Arch] in
theorem log2_lt_of_lt {n k : Nat} (h : n < 2 ^ k) (hk : 0 < k) : n.log2 < k := by
  by_cases h0 : n = 0
  · subst h0; simpa using hk
  · exact (Nat.log2_lt h0).mpr h

omit [Arch] in
theorem log2_split (n k : Nat) (h : n / 2 ^ k ≠ 0) : n.log2 = k + (n / 2 ^ k).log2 := by
  have hp : 0 < 2 ^ k := Nat.pow_pos (by decide)
  have hn : n ≠ 0 := by rintro rfl; simp at h
  obtain ⟨h1, h2⟩ := (Nat.log2_eq_iff h).mp rfl
  rw [Nat.log2_eq_iff hn]
  constructor
  · rw [Nat.pow_add, Nat.mul_comm]
    exact (Nat.le_div_iff_mul_le hp).mp h1
  · have := (Nat.div_lt_iff_lt_mul hp).mp h2
    rw [Nat.add_assoc, Nat.pow_add, Nat.mul_comm]
    exact this

omit [Arch] in
theorem in_unsigned {k : Nat} {t : Int} (h0 : 0 ≤ t) (h : t < 2 ^ (8 * 2 ^ k)) : (ITy.mk false k).In t := by
  refine ⟨by rw [ITy.min_unsigned rfl]; exact h0, ?_⟩
  unfold ITy.max; rw [ITy.digits_unsigned rfl]; unfold ITy.bits; simp only; omega

theorem ilog2D_eq (k : Nat) : k ≤ 4 → ∀ t : Int, 0 < t → t < 2 ^ (8 * 2 ^ k) →
    ilog2D k t = .ret (t.toNat.log2 : Nat) := by
  induction k with
  | zero =>
    intro _ t h0 h
    have hs := logTable_spec ⟨t.toNat, by norm_num at h; omega⟩ (by simp only; omega)
    simp only at hs
    simp only [ilog2D, hs]
    rw [conv_of_in]
    have := log2_lt_of_lt (n := t.toNat) (k := 8) (by norm_num at h ⊢; omega) (by decide)
    exact tUInt_in (by omega) (by omega)
  | succ k ih =>
    intro hk t h0 h
    have hn : 8 * 2 ^ (k + 1) = 8 * 2 ^ k + 8 * 2 ^ k := by rw [Nat.pow_succ]; omega
    have hk' : 2 ^ k ≤ 2 ^ 4 := Nat.pow_le_pow_right (by decide) (by omega)
    have hb : 8 * 2 ^ k ≤ 128 := by omega
    have hb0 : 0 < 8 * 2 ^ k := Nat.mul_pos (by decide) (Nat.pow_pos (by decide))
    simp only [ilog2D]
    generalize hN : 8 * 2 ^ k = N at *
    have hp := two_pow_pos N
    rw [hn, Int.pow_add] at h
    have hq0 : 0 ≤ t / 2 ^ N := Int.ediv_nonneg (by omega) (by omega)
    have hq1 : t / 2 ^ N < 2 ^ N := Int.ediv_lt_of_lt_mul hp h
    have hqin : (ITy.mk false k).In (t / 2 ^ N) := in_unsigned hq0 (by rw [hN]; exact hq1)
    rw [conv_of_in hqin]
    by_cases hz : t / 2 ^ N = 0
    · have ht : t < 2 ^ N := by
        by_contra hc
        have : 1 ≤ t / 2 ^ N := (Int.le_ediv_iff_mul_le hp).mpr (by omega)
        omega
      rw [if_pos hz, conv_of_in (in_unsigned (by omega) (by rw [hN]; exact ht))]
      exact ih (by omega) t h0 ht
    · rw [if_neg hz, ih (by omega) _ (by omega) hq1]
      have e : (t / 2 ^ N).toNat = t.toNat / 2 ^ N := by
        obtain ⟨n, rfl⟩ := Int.eq_ofNat_of_zero_le (show 0 ≤ t by omega)
        have : ((n : Int) / 2 ^ N) = ((n / 2 ^ N : Nat) : Int) := by push_cast; rfl
        rw [this]; rfl
      have hl := log2_split t.toNat N (by rw [← e]; omega)
      have hb2 := log2_lt_of_lt (n := t.toNat) (k := N + N) (by
        zify; rw [Int.toNat_of_nonneg (by omega), Int.pow_add]; exact h) (by omega)
      rw [Out.ret_bind, e, conv_of_in, hl]
      · push_cast; rfl
      · exact tUInt_in (by omega) (by omega)

theorem cEq_zero {T : ITy} {t : Int} (h : T.In t) : cEq T tInt t 0 = decide (t = 0) :=
  cEq_eq (by rw [uac_int_right]; exact in_promote h) (ITy.in_zero _)
theorem cLt_zero {T : ITy} {t : Int} (h : T.In t) : cLt T tInt t 0 = decide (t < 0) :=
  cLt_eq (by rw [uac_int_right]; exact in_promote h) (ITy.in_zero _)
theorem cGt_zero {T : ITy} {t : Int} (h : T.In t) : cGt T tInt t 0 = decide (0 < t) :=
  cGt_eq (by rw [uac_int_right]; exact in_promote h) (ITy.in_zero _)
theorem cGe_zero {T : ITy} {t : Int} (h : T.In t) : cGe T tInt t 0 = decide (0 ≤ t) :=
  cGe_eq (by rw [uac_int_right]; exact in_promote h) (ITy.in_zero _)
theorem cNe_zero {T : ITy} {t : Int} (h : T.In t) : cNe T tInt t 0 = decide (t ≠ 0) :=
  cNe_eq (by rw [uac_int_right]; exact in_promote h) (ITy.in_zero _)

theorem ilog2_eq {T : ITy} (hT : T.Ok) {t : Int} (h : T.In t) (h0 : 0 ≤ t) :
    ilog2 T t = .ret (t.toNat.log2 : Nat) := by
  unfold ilog2
  rw [cEq_zero h]
  by_cases hz : t = 0
  · subst hz; simp
  · simp only [hz, decide_false, Bool.false_eq_true, if_false]
    have hd : T.digits ≤ T.bits := by unfold ITy.digits; split <;> omega
    have hb : t < 2 ^ T.bits := by
      have := h.2; have := two_pow_le hd; unfold ITy.max at *; omega
    have hin : T.toUnsigned.In t := in_unsigned h0 hb
    rw [conv_of_in hin]
    exact ilog2D_eq _ (ok_lg hT) _ (by omega) hb

theorem significantBits_eq {T : ITy} (hT : T.Ok) {t : Int} (h : T.In t) :
    significantBits T t = .ret (sbits t : Nat) ∧ sbits t ≤ T.digits := by
  have hb := ok_bits hT
  have hd : T.digits ≤ T.bits := by unfold ITy.digits; split <;> omega
  have hd7 := T.digits_ge
  have h2 := h.2
  unfold ITy.max at h2
  have hs : sbits t ≤ T.digits := by
    by_cases h0 : t < 0
    · rw [sbits_neg h0]
      refine sbits_le_of_lt (by omega) (by omega) ?_
      rcases hsg : T.signed with _ | _
      · exact absurd (h.nonneg hsg) (by omega)
      · have := h.1; rw [ITy.min_signed hsg] at this; omega
    · exact sbits_le_of_lt (by omega) (by omega) (by omega)
  refine ⟨?_, hs⟩
  unfold significantBits
  rw [cLt_zero h]
  by_cases h0 : t < 0
  · have hsg : T.signed = true := by
      rcases hsg : T.signed with _ | _
      · exact absurd (h.nonneg hsg) (by omega)
      · rfl
    have hin : (promote T).In (-t - 1) := by
      apply in_promote
      have := h.1; have := h.2
      have e := ITy.min_eq T
      rw [hsg, if_pos rfl] at e
      exact ⟨by omega, by omega⟩
    simp only [h0, decide_true, if_true]
    rw [cNot_signed hsg h, ilog2_eq (promote_ok hT) hin (by omega), Out.ret_bind, conv_of_in]
    · rw [sbits, if_pos h0]; push_cast; rfl
    · rw [sbits, if_pos h0] at hs; exact tUInt_in (by omega) (by omega)
  · simp only [h0, decide_false, Bool.false_eq_true, if_false]
    rw [ilog2_eq hT h (by omega), Out.ret_bind, conv_of_in]
    · rw [sbits, if_neg h0]; push_cast; rfl
    · rw [sbits, if_neg h0] at hs; exact tUInt_in (by omega) (by omega)

end
end Verif
