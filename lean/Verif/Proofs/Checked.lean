import Verif.Checked
import Verif.Proofs.SafeCompare
import Verif.Proofs.Utility

/-! Closed forms of the checked operations on representable operands. -/

namespace Verif

theorem ITy.In.mk' {T : ITy} {x : Int} (h1 : T.min ≤ x) (h2 : x ≤ T.max) : T.In x := ⟨h1, h2⟩

theorem in_of_between {T : ITy} {a b x : Int} (ha : T.In a) (hb : T.In b) (h1 : a ≤ x) (h2 : x ≤ b) :
    T.In x := ⟨by have := ha.1; omega, by have := hb.2; omega⟩

theorem tdiv_nonneg_bounds {a b : Int} (ha : 0 ≤ a) (hb : 0 < b) : 0 ≤ a.tdiv b ∧ a.tdiv b ≤ a := by
  rw [Int.tdiv_eq_ediv_of_nonneg ha]
  exact ⟨Int.ediv_nonneg ha (by omega), Int.ediv_le_self b ha⟩

theorem tdiv_neg_pos_bounds {a b : Int} (ha : a ≤ 0) (hb : 0 < b) : a ≤ a.tdiv b ∧ a.tdiv b ≤ 0 := by
  have := tdiv_nonneg_bounds (a := -a) (b := b) (by omega) hb
  rw [Int.neg_tdiv] at this; omega

theorem tdiv_pos_neg_bounds {a b : Int} (ha : 0 ≤ a) (hb : b < 0) : -a ≤ a.tdiv b ∧ a.tdiv b ≤ 0 := by
  have := tdiv_nonneg_bounds (a := a) (b := -b) ha (by omega)
  rw [Int.tdiv_neg] at this; omega

theorem tdiv_neg_neg_bounds {a b : Int} (ha : a ≤ 0) (hb : b < 0) : 0 ≤ a.tdiv b ∧ a.tdiv b ≤ -a := by
  have := tdiv_nonneg_bounds (a := -a) (b := -b) (by omega) (by omega)
  rw [Int.neg_tdiv, Int.tdiv_neg] at this; omega

/-- when the quotient of two representable values is representable -/
theorem tdiv_in {R : ITy} {t u : Int} (ht : R.In t) (hu : R.In u) (_h0 : u ≠ 0)
    (h : ¬ (R.signed = true ∧ u = -1 ∧ t = R.min)) : R.In (t.tdiv u) := by
  have h1 := ht.1; have h2 := ht.2; have hz := R.min_nonpos; have hm := R.max_ge
  have e := ITy.min_eq R
  rcases hs : R.signed with _ | _
  · have ht0 := ht.nonneg hs; have hu0 := hu.nonneg hs
    have := tdiv_nonneg_bounds (a := t) (b := u) ht0 (by omega)
    exact ⟨by omega, by omega⟩
  · rw [hs, if_pos rfl] at e
    rcases Int.lt_or_gt_of_ne _h0 with hu0 | hu0
    · rcases Int.le_total 0 t with ht0 | ht0
      · have := tdiv_pos_neg_bounds (a := t) (b := u) ht0 hu0
        exact ⟨by omega, by omega⟩
      · have hb := tdiv_neg_neg_bounds (a := t) (b := u) ht0 hu0
        by_cases hm1 : u = -1
        · have : t ≠ R.min := fun h' => h ⟨hs, hm1, h'⟩
          exact ⟨by omega, by omega⟩
        · by_cases htm : t = R.min
          · -- |t| / |u| with |u| ≥ 2
            have h3 : (-t).tdiv (-u) = t.tdiv u := by rw [Int.neg_tdiv, Int.tdiv_neg, Int.neg_neg]
            rw [Int.tdiv_eq_ediv_of_nonneg (by omega)] at h3
            have h4 : (-t) / (-u) < -t := by
              rw [Int.ediv_lt_iff_lt_mul (by omega)]
              have := Int.mul_le_mul_of_nonneg_left (show 2 ≤ -u by omega) (show 0 ≤ -t by omega)
              omega
            exact ⟨by omega, by omega⟩
          · exact ⟨by omega, by omega⟩
    · rcases Int.le_total 0 t with ht0 | ht0
      · have := tdiv_nonneg_bounds (a := t) (b := u) ht0 hu0
        exact ⟨by omega, by omega⟩
      · have := tdiv_neg_pos_bounds (a := t) (b := u) ht0 hu0
        exact ⟨by omega, by omega⟩

theorem tmod_in {R : ITy} {t u : Int} (ht : R.In t) : R.In (t.tmod u) := by
  have h1 : (t.tmod u).natAbs ≤ t.natAbs := by rw [Int.natAbs_tmod]; exact Nat.mod_le _ _
  rcases Int.le_total 0 t with ht0 | ht0
  · have h2 := Int.tmod_nonneg u ht0
    exact in_of_between R.in_zero ht h2 (by omega)
  · have h2 := Int.tmod_nonneg u (show 0 ≤ -t by omega)
    rw [Int.neg_tmod] at h2
    exact in_of_between ht R.in_zero (by omega) (by omega)

section
variable [Arch]
open SafeCompare

theorem uac2 (R : ITy) : uac R (uac R R) = promote R := by
  rw [uac_self, uac_promote_right, uac_self]
theorem uac2' (R : ITy) : uac (uac R R) R = promote R := by
  rw [uac_comm, uac2]

theorem okAdd {R : ITy} {t u : Int} (ht : R.In t) (hu : R.In u) (hr : R.In (t + u)) :
    (do let s ← cAdd R R t u; Out.ret (CR.ok (conv R s))) = .ret (.ok (t + u)) := by
  rw [cAdd_eq (in_uac_self ht) (in_uac_self hu) (in_uac_self hr), Out.ret_bind, conv_of_in hr]

theorem okSub {R : ITy} {t u : Int} (ht : R.In t) (hu : R.In u) (hr : R.In (t - u)) :
    (do let s ← cSub R R t u; Out.ret (CR.ok (conv R s))) = .ret (.ok (t - u)) := by
  rw [cSub_eq (in_uac_self ht) (in_uac_self hu) (in_uac_self hr), Out.ret_bind, conv_of_in hr]

theorem add_eq {R : ITy} {h : Handler} {t u : Int} (ht : R.In t) (hu : R.In u) :
    add R h t u =
      if R.max < t + u then h .positive_overflow_error
      else if t + u < R.min then h .negative_overflow_error
      else .ret (.ok (t + u)) := by
  have hin : ∀ {x : Int}, R.In x → (uac R R).In x := fun h => in_uac_self h
  have hin2 : ∀ {x : Int}, R.In x → (uac R (uac R R)).In x := fun h => by rw [uac2]; exact in_promote h
  have hin3 : ∀ {x : Int}, R.In x → (uac (uac R R) R).In x := fun h => by rw [uac2']; exact in_promote h
  have ht1 := ht.1; have ht2 := ht.2; have hu1 := hu.1; have hu2 := hu.2
  have hz := R.min_nonpos; have hm := R.max_ge
  have e := ITy.min_eq R
  have hok : R.min ≤ t + u → t + u ≤ R.max → R.In (t + u) := fun a b => ⟨a, b⟩
  unfold add
  rcases hs : R.signed with _ | _
  · have ht0 := ht.nonneg hs; have hu0 := hu.nonneg hs
    have hd : R.In (R.max - u) := ⟨by omega, by omega⟩
    simp only [Bool.false_eq_true, if_false]
    rw [cSub_eq (hin R.in_max) (hin hu) (hin hd), Out.ret_bind, cLt_eq (hin3 hd) (hin3 ht)]
    simp only [decide_eq_true_eq]
    split_ifs <;> first | rfl | omega | exact okAdd ht hu (hok (by omega) (by omega))
  · rw [hs, if_pos rfl] at e
    simp only [if_true]
    rw [cGt_zero hu, cLt_zero hu]
    rcases Int.lt_trichotomy u 0 with hn | hn | hp
    · have hd : R.In (R.min - u) := ⟨by omega, by omega⟩
      rw [cSub_eq (hin R.in_min) (hin hu) (hin hd), Out.ret_bind, cLt_eq (hin2 ht) (hin2 hd)]
      simp only [hn, show ¬ 0 < u by omega, decide_true, decide_false, if_true, if_false, Bool.false_eq_true, Out.ret_bind, decide_eq_true_eq]
      split_ifs <;> first | rfl | omega | exact okAdd ht hu (hok (by omega) (by omega))
    · simp only [show ¬ 0 < u by omega, show ¬ u < 0 by omega, decide_false, if_false, Bool.false_eq_true, Out.ret_bind]
      split_ifs <;> first | rfl | omega | exact okAdd ht hu (hok (by omega) (by omega))
    · have hd : R.In (R.max - u) := ⟨by omega, by omega⟩
      rw [cSub_eq (hin R.in_max) (hin hu) (hin hd), Out.ret_bind, cGt_eq (hin2 ht) (hin2 hd)]
      simp only [hp, show ¬ u < 0 by omega, decide_true, decide_false, if_true, if_false, Bool.false_eq_true, Out.ret_bind, decide_eq_true_eq]
      split_ifs <;> first | rfl | omega | exact okAdd ht hu (hok (by omega) (by omega))

theorem subtract_eq {R : ITy} {h : Handler} {t u : Int} (ht : R.In t) (hu : R.In u) :
    subtract R h t u =
      if R.max < t - u then h .positive_overflow_error
      else if t - u < R.min then h .negative_overflow_error
      else .ret (.ok (t - u)) := by
  have hin : ∀ {x : Int}, R.In x → (uac R R).In x := fun h => in_uac_self h
  have hin2 : ∀ {x : Int}, R.In x → (uac R (uac R R)).In x := fun h => by rw [uac2]; exact in_promote h
  have ht1 := ht.1; have ht2 := ht.2; have hu1 := hu.1; have hu2 := hu.2
  have hz := R.min_nonpos; have hm := R.max_ge
  have e := ITy.min_eq R
  have hok : R.min ≤ t - u → t - u ≤ R.max → R.In (t - u) := fun a b => ⟨a, b⟩
  unfold subtract
  rcases hs : R.signed with _ | _
  · have ht0 := ht.nonneg hs; have hu0 := hu.nonneg hs
    simp only [Bool.false_eq_true, if_false]
    rw [hs] at e
    simp only [Bool.false_eq_true, if_false] at e
    rw [cLt_eq (hin ht) (hin hu)]
    simp only [decide_eq_true_eq]
    split_ifs <;> first | rfl | omega | exact okSub ht hu (hok (by omega) (by omega))
  · rw [hs, if_pos rfl] at e
    simp only [if_true]
    rw [cGt_zero hu, cLt_zero hu]
    rcases Int.lt_trichotomy u 0 with hn | hn | hp
    · have hd : R.In (R.max + u) := ⟨by omega, by omega⟩
      rw [cAdd_eq (hin R.in_max) (hin hu) (hin hd), Out.ret_bind, cGt_eq (hin2 ht) (hin2 hd)]
      simp only [hn, show ¬ 0 < u by omega, decide_true, decide_false, if_true, if_false, Bool.false_eq_true, Out.ret_bind, decide_eq_true_eq]
      split_ifs <;> first | rfl | omega | exact okSub ht hu (hok (by omega) (by omega))
    · simp only [show ¬ 0 < u by omega, show ¬ u < 0 by omega, decide_false, if_false, Bool.false_eq_true, Out.ret_bind]
      split_ifs <;> first | rfl | omega | exact okSub ht hu (hok (by omega) (by omega))
    · have hd : R.In (R.min + u) := ⟨by omega, by omega⟩
      rw [cAdd_eq (hin R.in_min) (hin hu) (hin hd), Out.ret_bind, cLt_eq (hin2 ht) (hin2 hd)]
      simp only [hp, show ¬ u < 0 by omega, decide_true, decide_false, if_true, if_false, Bool.false_eq_true, Out.ret_bind, decide_eq_true_eq]
      split_ifs <;> first | rfl | omega | exact okSub ht hu (hok (by omega) (by omega))

theorem minus_eq {R : ITy} {h : Handler} {t : Int} (ht : R.In t) :
    minus R h t =
      if R.max < -t then h .positive_overflow_error
      else if -t < R.min then h .negative_overflow_error
      else .ret (.ok (-t)) := by
  have ht1 := ht.1; have ht2 := ht.2
  have hz := R.min_nonpos; have hm := R.max_ge
  have e := ITy.min_eq R
  unfold minus
  rcases hs : R.signed with _ | _
  · have ht0 := ht.nonneg hs
    rw [hs] at e
    simp only [Bool.false_eq_true, if_false] at e ⊢
    rw [cGt_zero ht, conv_of_in R.in_zero]
    simp only [decide_eq_true_eq]
    split_ifs <;> first | rfl | omega | (obtain rfl : t = 0 := (by omega); rfl)
  · rw [hs, if_pos rfl] at e
    simp only [if_true]
    rw [cEq_eq (in_uac_self ht) (in_uac_self R.in_min)]
    simp only [decide_eq_true_eq]
    split_ifs <;> first | rfl | omega | skip
    have hr : R.In (-t) := ⟨by omega, by omega⟩
    rw [cNeg_eq (in_promote ht) (in_promote hr), Out.ret_bind, conv_of_in hr]

theorem mulOk_eq {R : ITy} {t u : Int} (ht : R.In t) (hu : R.In u) (hr : R.In (t * u)) :
    mulOk R t u = .ret (.ok (t * u)) := by
  unfold mulOk
  rw [cMul_eq (in_uac_self ht) (in_uac_self hu) (in_uac_self hr), Out.ret_bind, conv_of_in hr]

theorem wide_iff {R : ITy} (hR : R.Ok) :
    (2 ^ R.lg > 2 ^ Arch.maxLg / 2) ↔ R.lg = Arch.maxLg := by
  unfold ITy.Ok at hR
  constructor
  · intro h
    by_contra hc
    have h1 : 2 ^ (R.lg + 1) ≤ 2 ^ Arch.maxLg := Nat.pow_le_pow_right (by decide) (by omega)
    rw [Nat.pow_succ] at h1
    omega
  · intro h
    rw [h]
    have : 0 < 2 ^ Arch.maxLg := Nat.pow_pos (by decide)
    omega

theorem multiply_eq {R : ITy} (hR : R.Ok) {h : Handler} {t u : Int} (ht : R.In t) (hu : R.In u) :
    multiply R h t u =
      if R.max < t * u then h .positive_overflow_error
      else if t * u < R.min then h .negative_overflow_error
      else .ret (.ok (t * u)) := by
  have hin : ∀ {x : Int}, R.In x → (uac R R).In x := fun h => in_uac_self h
  have hin2 : ∀ {x : Int}, R.In x → (uac R (uac R R)).In x := fun h => by rw [uac2]; exact in_promote h
  have ht1 := ht.1; have ht2 := ht.2; have hu1 := hu.1; have hu2 := hu.2
  have hz := R.min_nonpos; have hm := R.max_ge
  have e := ITy.min_eq R
  have hok : R.min ≤ t * u → t * u ≤ R.max → R.In (t * u) := fun a b => ⟨a, b⟩
  unfold multiply
  have hw := wide_iff hR
  rcases hs : R.signed with _ | _
  · have ht0 := ht.nonneg hs; have hu0 := hu.nonneg hs
    have hp0 : 0 ≤ t * u := Int.mul_nonneg ht0 hu0
    rw [hs] at e
    simp only [Bool.false_eq_true, if_false] at e
    by_cases hwide : R.lg = Arch.maxLg
    · simp only [hw.mpr hwide, decide_true]
      unfold multiplyUSlow
      rw [cGt_zero hu]
      by_cases hup : 0 < u
      · have hq := tdiv_nonneg_bounds (a := R.max) (b := u) (by omega) hup
        have hqin : R.In (R.max.tdiv u) := ⟨by omega, by omega⟩
        rw [cDiv_eq (hin R.in_max) (hin hu) (by omega) (hin hqin)]
        simp only [hup, decide_true, if_true, Out.ret_bind]
        rw [cGt_eq (hin2 ht) (hin2 hqin)]
        simp only [decide_eq_true_eq]
        have : R.max.tdiv u < t ↔ R.max < t * u := by
          rw [Int.tdiv_eq_ediv_of_nonneg (by omega), Int.ediv_lt_iff_lt_mul hup]
        split_ifs <;> first | rfl | omega | exact mulOk_eq ht hu (hok (by omega) (by omega))
      · have hu0' : u = 0 := by omega
        subst hu0'
        simp only [Int.lt_irrefl, decide_false, if_false, Bool.false_eq_true, Out.ret_bind, Int.mul_zero] at *
        rw [if_neg (by omega), if_neg (by omega)]
        simpa using mulOk_eq ht hu (by simpa using R.in_zero)
    · have hlt : R.lg < tUIntMax.lg := by unfold ITy.Ok at hR; simp only [tUIntMax]; omega
      simp only [show ¬ (2 ^ R.lg > 2 ^ Arch.maxLg / 2) from fun h => hwide (hw.mp h), decide_false]
      unfold multiplyUFast
      have htM : tUIntMax.In t := ht.widen (by rw [hs]; rfl) (by omega)
      have huM : tUIntMax.In u := hu.widen (by rw [hs]; rfl) (by omega)
      have hmM : tUIntMax.In R.max := R.in_max.widen (by rw [hs]; rfl) (by omega)
      have hpM : tUIntMax.In (t * u) := by
        refine ⟨by rw [ITy.min_unsigned rfl]; omega, ?_⟩
        have hb := ITy.bits_lt hlt
        have hb2 := two_pow_le hb
        unfold ITy.max at ht2 hu2 ⊢
        rw [ITy.digits_unsigned hs] at ht2 hu2
        rw [ITy.digits_unsigned (T := tUIntMax) rfl]
        rw [Nat.two_mul, Int.pow_add] at hb2
        have hp := two_pow_pos R.bits
        have h1 : t * u ≤ (2 ^ R.bits - 1) * (2 ^ R.bits - 1) := Int.mul_le_mul ht2 hu2 hu0 (by omega)
        nlinarith
      have hU : uac tUIntMax tUIntMax = tUIntMax := by
        rw [uac_self]; exact promote_of_ge Arch.intMax
      have hU2 : uac tUIntMax R = tUIntMax := by
        unfold uac
        rw [promote_of_ge (T := tUIntMax) Arch.intMax]
        have hpr : (promote R).lg ≤ Arch.maxLg := promote_ok hR
        have hl : tUIntMax.lg = Arch.maxLg := rfl
        rcases hps : (promote R).signed with _ | _ <;> simp [hps, show tUIntMax.signed = false from rfl] <;> omega
      rw [conv_of_in htM, conv_of_in huM, cMul_eq (by rwa [hU]) (by rwa [hU]) (by rwa [hU]), Out.ret_bind, hU,
        cGt_eq (by rwa [hU2]) (by rwa [hU2])]
      simp only [decide_eq_true_eq]
      split_ifs <;> first | rfl | omega | exact mulOk_eq ht hu (hok (by omega) (by omega))
  · rw [hs, if_pos rfl] at e
    by_cases hwide : R.lg = Arch.maxLg
    · simp only [hw.mpr hwide, decide_true]
      unfold multiplySSlow
      rw [cGt_zero ht, cGt_zero hu, cNe_zero ht]
      by_cases htp : 0 < t
      · by_cases hup : 0 < u
        · have hq := tdiv_nonneg_bounds (a := R.max) (b := u) (by omega) hup
          have hqin : R.In (R.max.tdiv u) := ⟨by omega, by omega⟩
          have hp0 : 0 ≤ t * u := Int.mul_nonneg (by omega) (by omega)
          simp only [htp, hup, decide_true, if_true]
          rw [cDiv_eq (hin R.in_max) (hin hu) (by omega) (hin hqin), Out.ret_bind, cGt_eq (hin2 ht) (hin2 hqin)]
          have : R.max.tdiv u < t ↔ R.max < t * u := by
            rw [Int.tdiv_eq_ediv_of_nonneg (by omega), Int.ediv_lt_iff_lt_mul hup]
          simp only [decide_eq_true_eq]
          split_ifs <;> first | rfl | omega | exact mulOk_eq ht hu (hok (by omega) (by omega))
        · have hq := tdiv_neg_pos_bounds (a := R.min) (b := t) (by omega) htp
          have hqin : R.In (R.min.tdiv t) := ⟨by omega, by omega⟩
          have hp0 : t * u ≤ 0 := Int.mul_nonpos_of_nonneg_of_nonpos (by omega) (by omega)
          simp only [htp, hup, decide_true, decide_false, if_true, if_false, Bool.false_eq_true]
          rw [cDiv_eq (hin R.in_min) (hin ht) (by omega) (hin hqin), Out.ret_bind, cLt_eq (hin2 hu) (hin2 hqin)]
          have : u < R.min.tdiv t ↔ t * u < R.min := by
            have h1 : R.min.tdiv t = - ((- R.min) / t) := by
              rw [← Int.tdiv_eq_ediv_of_nonneg (by omega), Int.neg_tdiv, Int.neg_neg]
            have h2 := Int.ediv_lt_iff_lt_mul (a := - R.min) (b := -u) htp
            rw [Int.neg_mul, Int.mul_comm] at h2
            rw [h1]
            constructor
            · intro h; have := h2.mp (by omega); omega
            · intro h; have := h2.mpr (by omega); omega
          simp only [decide_eq_true_eq]
          split_ifs <;> first | rfl | omega | exact mulOk_eq ht hu (hok (by omega) (by omega))
      · by_cases hup : 0 < u
        · have hq := tdiv_neg_pos_bounds (a := R.min) (b := u) (by omega) hup
          have hqin : R.In (R.min.tdiv u) := ⟨by omega, by omega⟩
          have hp0 : t * u ≤ 0 := Int.mul_nonpos_of_nonpos_of_nonneg (by omega) (by omega)
          simp only [htp, hup, decide_true, decide_false, if_true, if_false, Bool.false_eq_true]
          rw [cDiv_eq (hin R.in_min) (hin hu) (by omega) (hin hqin), Out.ret_bind, cLt_eq (hin2 ht) (hin2 hqin)]
          have : t < R.min.tdiv u ↔ t * u < R.min := by
            have h1 : R.min.tdiv u = - ((- R.min) / u) := by
              rw [← Int.tdiv_eq_ediv_of_nonneg (by omega), Int.neg_tdiv, Int.neg_neg]
            have h2 := Int.ediv_lt_iff_lt_mul (a := - R.min) (b := -t) hup
            rw [h1]
            constructor
            · intro h; have := h2.mp (by omega); rw [Int.neg_mul] at this; omega
            · intro h; have := h2.mpr (by rw [Int.neg_mul]; omega); omega
          simp only [decide_eq_true_eq]
          split_ifs <;> first | rfl | omega | exact mulOk_eq ht hu (hok (by omega) (by omega))
        · have hp0 : 0 ≤ t * u := Int.mul_nonneg_of_nonpos_of_nonpos (by omega) (by omega)
          simp only [htp, hup, decide_false, if_false, Bool.false_eq_true]
          by_cases ht0 : t = 0
          · subst ht0
            simp only [ne_eq, not_true_eq_false, decide_false, if_false, Bool.false_eq_true, Out.ret_bind, Int.zero_mul] at *
            rw [if_neg (by omega), if_neg (by omega)]
            simpa using mulOk_eq ht hu (by simpa using R.in_zero)
          · have hq := tdiv_pos_neg_bounds (a := R.max) (b := t) (by omega) (by omega)
            have hqin : R.In (R.max.tdiv t) := ⟨by omega, by omega⟩
            rw [cDiv_eq (hin R.in_max) (hin ht) (by omega) (hin hqin)]
            simp only [ne_eq, ht0, not_false_eq_true, decide_true, if_true, Out.ret_bind]
            rw [cLt_eq (hin2 hu) (hin2 hqin)]
            have : u < R.max.tdiv t ↔ R.max < t * u := by
              have h1 : R.max.tdiv t = - (R.max / (-t)) := by
                rw [← Int.tdiv_eq_ediv_of_nonneg (by omega), Int.tdiv_neg, Int.neg_neg]
              have h2 := Int.ediv_lt_iff_lt_mul (a := R.max) (b := -u) (c := -t) (by omega)
              rw [Int.neg_mul_neg, Int.mul_comm] at h2
              rw [h1]
              constructor
              · intro h; exact h2.mp (by omega)
              · intro h; have := h2.mpr h; omega
            simp only [decide_eq_true_eq]
            split_ifs <;> first | rfl | omega | exact mulOk_eq ht hu (hok (by omega) (by omega))
    · have hlt : R.lg < tIntMax.lg := by unfold ITy.Ok at hR; simp only [tIntMax]; omega
      simp only [show ¬ (2 ^ R.lg > 2 ^ Arch.maxLg / 2) from fun h => hwide (hw.mp h), decide_false]
      unfold multiplySFast
      have hwid : ∀ {x : Int}, R.In x → tIntMax.In x := fun h => h.widen (by rw [hs]; rfl) (by omega)
      have hpM : tIntMax.In (t * u) := by
        have hb := ITy.bits_lt hlt
        have hd := ITy.digits_signed hs
        have hdM := ITy.digits_signed (T := tIntMax) rfl
        have hb2 := two_pow_le (show R.digits + R.digits + 1 ≤ tIntMax.digits by omega)
        rw [two_pow_succ', Int.pow_add] at hb2
        have hp := two_pow_pos R.digits
        rw [ITy.min_signed hs] at ht1 hu1
        unfold ITy.max at ht2 hu2
        have hle : (t * u).natAbs ≤ 2 ^ R.digits * 2 ^ R.digits := by
          rw [Int.natAbs_mul]
          apply Nat.mul_le_mul
          · zify; rw [abs_le]; exact ⟨by omega, by omega⟩
          · zify; rw [abs_le]; exact ⟨by omega, by omega⟩
        have hle' : ((t * u).natAbs : Int) ≤ 2 ^ R.digits * 2 ^ R.digits := by exact_mod_cast hle
        have hpp : (0 : Int) < 2 ^ R.digits * 2 ^ R.digits := Int.mul_pos hp hp
        constructor
        · rw [ITy.min_signed rfl]; omega
        · unfold ITy.max; omega
      have hU : uac tIntMax tIntMax = tIntMax := by
        rw [uac_self]; exact promote_of_ge Arch.intMax
      rw [conv_of_in (hwid ht), conv_of_in (hwid hu), conv_of_in (hwid R.in_max), conv_of_in (hwid R.in_min),
        cMul_eq (by rw [hU]; exact hwid ht) (by rw [hU]; exact hwid hu) (by rwa [hU]), Out.ret_bind, Out.ret_bind, hU,
        cGt_eq (by rwa [hU]) (by rw [hU]; exact hwid R.in_max),
        cLt_eq (by rwa [hU]) (by rw [hU]; exact hwid R.in_min)]
      simp only [decide_eq_true_eq]
      split_ifs <;> first | rfl | omega | exact mulOk_eq ht hu (hok (by omega) (by omega))

theorem divide_eq {R : ITy} {h : Handler} {t u : Int} (ht : R.In t) (hu : R.In u) :
    divide R h t u =
      if u = 0 then h .domain_error
      else if R.max < t.tdiv u then h .positive_overflow_error
      else .ret (.ok (t.tdiv u)) := by
  have ht1 := ht.1; have ht2 := ht.2
  have hz := R.min_nonpos; have hm := R.max_ge
  have e := ITy.min_eq R
  unfold divide
  rw [cEq_zero hu]
  simp only [decide_eq_true_eq]
  by_cases h0 : u = 0
  · rw [if_pos h0, if_pos h0]
  rw [if_neg h0, if_neg h0]
  have okDiv : R.In (t.tdiv u) →
      (do let q ← cDiv R R t u; Out.ret (CR.ok (conv R q))) = .ret (.ok (t.tdiv u)) := fun hq => by
    rw [cDiv_eq (in_uac_self ht) (in_uac_self hu) h0 (in_uac_self hq), Out.ret_bind, conv_of_in hq]
  rcases hs : R.signed with _ | _
  · have hq := tdiv_in ht hu h0 (by simp [hs])
    have := hq.2
    simp only [Bool.false_eq_true, if_false]
    rw [if_neg (by omega), okDiv hq]
  · rw [hs, if_pos rfl] at e
    simp only [if_true]
    have hP : (uac R tInt).In (-1) := by
      rw [uac_int_right]; exact in_promote (ITy.in_neg_one hs)
    rw [cEq_eq (by rw [uac_int_right]; exact in_promote hu) hP, cEq_eq (in_uac_self ht) (in_uac_self R.in_min)]
    by_cases hb : u = -1 ∧ t = R.min
    · obtain ⟨rfl, rfl⟩ := hb
      rw [if_pos (by simp), if_pos]
      rw [Int.tdiv_neg, Int.tdiv_one]; omega
    · have hq := tdiv_in ht hu h0 (fun h => hb h.2)
      have := hq.2
      rw [if_neg (by simpa using hb), if_neg (by omega), okDiv hq]

theorem modulus_eq {R : ITy} {h : Handler} {t u : Int} (ht : R.In t) (hu : R.In u) :
    modulus R h t u =
      if u = 0 then h .domain_error
      else if R.signed = true ∧ t = R.min ∧ u = R.min then .ret (.ok t)
      else .ret (.ok (t.tmod u)) := by
  have ht1 := ht.1; have ht2 := ht.2; have hu1 := hu.1; have hu2 := hu.2
  have hz := R.min_nonpos; have hm := R.max_ge
  have e := ITy.min_eq R
  unfold modulus
  rw [cEq_eq (by rw [uac_int_left]; exact ITy.in_zero _) (by rw [uac_int_left]; exact in_promote hu)]
  simp only [decide_eq_true_eq]
  by_cases h0 : u = 0
  · rw [if_pos h0.symm, if_pos h0]
  rw [if_neg (Ne.symm h0), if_neg h0]
  have okMod : ∀ v : Int, R.In v → v ≠ 0 → ¬ (R.signed = true ∧ v = -1 ∧ t = R.min) →
      (do let q ← cMod R R t v; Out.ret (CR.ok (conv R q))) = .ret (.ok (t.tmod v)) := fun v hv hv0 hb => by
    have hq := tdiv_in ht hv hv0 hb
    rw [cMod_eq (in_uac_self ht) (in_uac_self hv) hv0 (fun _ => in_uac_self hq), Out.ret_bind,
      conv_of_in (tmod_in ht)]
  rcases hs : R.signed with _ | _
  · simp only [Bool.false_eq_true, if_false, false_and]
    exact okMod u hu h0 (by simp [hs])
  · rw [hs, if_pos rfl] at e
    simp only [if_true, true_and]
    rw [cGe_zero hu]
    by_cases hp : 0 ≤ u
    · simp only [hp, decide_true, if_true]
      rw [if_neg (by omega)]
      exact okMod u hu h0 (by omega)
    · simp only [hp, decide_false, if_false, Bool.false_eq_true]
      rw [minus_eq hu]
      by_cases hum : u = R.min
      · rw [if_pos (by omega)]
        simp only [make, mkErr, reduceCtorEq, if_false, Out.ret_bind, CR.exception]
        simp only [show (Err.positive_overflow_error != Err.success) = true from rfl, if_true]
        by_cases htm : t = R.min
        · rw [if_pos ⟨htm, hum⟩]
        · rw [if_neg (fun h => htm h.1)]
          congr 2
          -- |t| < |u|
          rcases Int.le_total 0 t with h1 | h1
          · have h2 : t.tmod u = t.tmod (-u) := by rw [Int.tmod_neg]
            rw [h2, Int.tmod_eq_of_lt h1 (by omega)]
          · have h2 : t.tmod u = - (-t).tmod (-u) := by rw [Int.tmod_neg, Int.neg_tmod, Int.neg_neg]
            rw [h2, Int.tmod_eq_of_lt (by omega) (by omega), Int.neg_neg]
      · rw [if_neg (by omega), if_neg (by omega), if_neg (fun h => hum h.2)]
        simp only [Out.ret_bind, CR.exception, CR.value, Bool.false_eq_true, if_false]
        rw [okMod (-u) ⟨by omega, by omega⟩ (by omega) (by omega), Int.tmod_neg]

theorem cast_eq {R T : ITy} {mn mx : Int} {h : Handler} {t : Int} (ht : T.In t) (hmn : R.In mn) (hmx : R.In mx) :
    cast R mn mx T h t =
      if R.signed = false ∧ T.signed = true ∧ t < mn then h .domain_error
      else if mx < t then h .positive_overflow_error
      else if t < mn then h (if T.signed then .negative_overflow_error else .positive_overflow_error)
      else .ret (.ok t) := by
  have hok : mn ≤ t → t ≤ mx → conv R t = t := fun a b => conv_of_in (in_of_between hmn hmx a b)
  unfold cast
  rw [greaterThan_eq ht hmx, lessThan_eq ht hmn]
  rcases hs : R.signed with _ | _ <;> rcases hs' : T.signed with _ | _ <;>
    simp only [decide_eq_true_eq, Bool.false_eq_true, true_and, false_and, if_false, if_true, and_false, reduceCtorEq] <;>
    split_ifs <;> first | rfl | omega | rw [hok (by omega) (by omega)]

theorem promote_in_small {R : ITy} {x : Int} (h0 : 0 ≤ x) (h : x ≤ 32767) : (promote R).In x := by
  have hl : 1 ≤ (promote R).lg := Nat.le_trans Arch.int16 (promote_lg' R)
  have hb := ITy.bits_le (T := i16) (U := promote R) (by simpa [i16] using hl)
  have h3 : i16.bits = 16 := rfl
  have hd : 15 ≤ (promote R).digits := by unfold ITy.digits; split <;> omega
  have := two_pow_le hd
  have := (promote R).min_nonpos
  exact ⟨by omega, by unfold ITy.max; omega⟩

omit [Arch] in
theorem digits_le_bits (R : ITy) : R.digits ≤ R.bits := by unfold ITy.digits; split <;> omega

theorem cGt_digits {R : ITy} (hR : R.Ok) {u : Int} (hu : R.In u) :
    cGt R tInt u R.digits = decide ((R.digits : Int) < u) := by
  have := ok_bits hR; have := digits_le_bits R
  exact cGt_eq (by rw [uac_int_right]; exact in_promote hu)
    (by rw [uac_int_right]; exact promote_in_small (by omega) (by omega))

theorem cShl_eq {T U : ITy} {t u : Int} (ht : (promote T).In t) (ht0 : 0 ≤ t) (hu : (promote U).In u) (hu0 : 0 ≤ u)
    (hb : u < (promote T).bits) (hr : (promote T).In (t * 2 ^ u.toNat)) :
    cShl T U t u = .ret (t * 2 ^ u.toNat) := by
  simp only [cShl]
  rw [conv_of_in ht, conv_of_in hu, if_neg (by omega), if_neg (show ¬ t < 0 by omega)]
  have hp : 0 ≤ t * 2 ^ u.toNat := Int.mul_nonneg ht0 (Int.le_of_lt (two_pow_pos _))
  rw [if_pos (toUnsigned_in hr hp), conv_of_in hr]
  split <;> rfl

theorem cShr_eq {T U : ITy} {t u : Int} (ht : (promote T).In t) (hu : (promote U).In u) :
    cShr T U t u = if u < 0 ∨ ((promote T).bits : Int) ≤ u then .fault .ub else .ret (t / 2 ^ u.toNat) := by
  simp only [cShr]
  rw [conv_of_in ht, conv_of_in hu]

omit [Arch] in
theorem shl_fits {t u : Int} {d : Nat} (h0 : 0 ≤ t) (hu0 : 0 ≤ u) (hu : u ≤ (d : Int) - sbits t) :
    t * 2 ^ u.toNat < 2 ^ d := by
  have h1 := lt_two_pow_sbits h0
  have h2 := two_pow_le (show sbits t + u.toNat ≤ d by omega)
  rw [Int.pow_add] at h2
  have h3 : t * 2 ^ u.toNat < 2 ^ sbits t * 2 ^ u.toNat := Int.mul_lt_mul_of_pos_right h1 (two_pow_pos _)
  omega

omit [Arch] in
/-- the value does not fit when more bits are asked for than available -/
theorem shl_overflows {t u : Int} {d : Nat} (h0 : 0 < t) (hu0 : 0 ≤ u) (hu : (d : Int) - sbits t < u) :
    2 ^ d ≤ t * 2 ^ u.toNat := by
  have h1 := two_pow_sbits_le h0
  have hs := sbits_pos t
  have h2 := two_pow_le (show d ≤ (sbits t - 1) + u.toNat by omega)
  rw [Int.pow_add] at h2
  have h3 : 2 ^ (sbits t - 1) * 2 ^ u.toNat ≤ t * 2 ^ u.toNat :=
    Int.mul_le_mul_of_nonneg_right h1 (Int.le_of_lt (two_pow_pos _))
  omega

theorem leftShiftBits_eq {R : ITy} (hR : R.Ok) {h : Handler} {t u : Int} (ht : R.In t) (hu : R.In u)
    (ht0 : 0 ≤ t) (hu0 : 0 < u) :
    leftShiftBits R h t u =
      if (R.digits : Int) - sbits t < u then h .shift_too_large else .ret (.ok (t * 2 ^ u.toNat)) := by
  obtain ⟨hsb, hsl⟩ := significantBits_eq hR ht
  have hs1 := sbits_pos t
  have hb := ok_bits hR; have hdb := digits_le_bits R
  have hU : uac tInt tUInt = tUInt := by
    rw [uac_int_left]; exact promote_of_ge (by simp [tUInt])
  unfold leftShiftBits
  rw [hsb, Out.ret_bind, cSub_eq (by rw [hU]; exact tUInt_in (by omega) (by omega))
    (by rw [hU]; exact tUInt_in (by omega) (by omega)) (by rw [hU]; exact tUInt_in (by omega) (by omega)),
    Out.ret_bind, greaterThan_eq hu (tUInt_in (by omega) (by omega))]
  simp only [decide_eq_true_eq]
  split_ifs with hc
  · rfl
  · have hf := shl_fits (d := R.digits) ht0 (by omega) (show u ≤ (R.digits : Int) - sbits t by omega)
    have hp : 0 ≤ t * 2 ^ u.toNat := Int.mul_nonneg ht0 (Int.le_of_lt (two_pow_pos _))
    have hz := R.min_nonpos
    have hr : R.In (t * 2 ^ u.toNat) := ⟨by omega, by unfold ITy.max; omega⟩
    have hpb := ITy.bits_le (promote_lg R)
    rw [cShl_eq (in_promote ht) ht0 (in_promote hu) (by omega) (by omega) (in_promote hr), Out.ret_bind,
      conv_of_in hr]

theorem leftShift_eq {R : ITy} (hR : R.Ok) {h : Handler} {t u : Int} (ht : R.In t) (hu : R.In u) :
    leftShift R h t u =
      if u = 0 then .ret (.ok t)
      else if u < 0 then h .negative_shift
      else if (R.digits : Int) < u then h .shift_too_large
      else if t < 0 then h .negative_shift
      else if (R.digits : Int) - sbits t < u then h .shift_too_large
      else .ret (.ok (t * 2 ^ u.toNat)) := by
  unfold leftShift
  rw [cEq_zero hu, cLt_zero hu, cGt_digits hR hu, cGe_zero ht]
  simp only [decide_eq_true_eq]
  by_cases h1 : u = 0
  · rw [if_pos h1, if_pos h1]
  by_cases h2 : u < 0
  · rw [if_neg h1, if_neg h1, if_pos h2, if_pos h2]
  by_cases h3 : (R.digits : Int) < u
  · rw [if_neg h1, if_neg h1, if_neg h2, if_neg h2, if_pos h3, if_pos h3]
  rw [if_neg h1, if_neg h1, if_neg h2, if_neg h2, if_neg h3, if_neg h3]
  rcases hs : R.signed with _ | _
  · have ht0 := ht.nonneg hs
    simp only [Bool.false_eq_true, if_false]
    rw [if_neg (by omega)]
    exact leftShiftBits_eq hR ht hu ht0 (by omega)
  · simp only [if_true]
    by_cases h0 : 0 ≤ t
    · rw [if_pos h0, if_neg (by omega)]
      exact leftShiftBits_eq hR ht hu h0 (by omega)
    · rw [if_neg h0, if_pos (by omega)]

omit [Arch] in
theorem shr_in {R : ITy} {t : Int} (n : Nat) (ht : R.In t) (h0 : 0 ≤ t) : R.In (t / 2 ^ n) :=
  in_of_between R.in_zero ht (Int.ediv_nonneg h0 (Int.le_of_lt (two_pow_pos _))) (Int.ediv_le_self _ h0)

theorem rightShift_eq {R : ITy} (hR : R.Ok) {h : Handler} {t u : Int} (ht : R.In t) (hu : R.In u) :
    rightShift R h t u =
      if u < 0 then h .negative_shift
      else if (R.digits : Int) < u then h .shift_too_large
      else if t < 0 then h .negative_value_shift
      else if R.signed = false ∧ Arch.intLg ≤ R.lg ∧ u = R.bits then .fault .ub
      else .ret (.ok (t / 2 ^ u.toNat)) := by
  unfold rightShift
  rw [cLt_zero hu, cGt_digits hR hu, cLt_zero ht, cShr_eq (in_promote ht) (in_promote hu)]
  simp only [decide_eq_true_eq]
  by_cases h2 : u < 0
  · rw [if_pos h2, if_pos h2]
  by_cases h3 : (R.digits : Int) < u
  · rw [if_neg h2, if_neg h2, if_pos h3, if_pos h3]
  rw [if_neg h2, if_neg h2, if_neg h3, if_neg h3]
  have hpb := ITy.bits_le (promote_lg R)
  rcases hs : R.signed with _ | _
  · have ht0 := ht.nonneg hs
    have hd := ITy.digits_unsigned hs
    simp only [Bool.false_eq_true, if_false, true_and]
    rw [if_neg (show ¬ t < 0 by omega)]
    by_cases hl : Arch.intLg ≤ R.lg
    · rw [promote_of_ge hl]
      by_cases hub : u = R.bits
      · rw [if_pos (by omega), if_pos ⟨hl, hub⟩]; rfl
      · rw [if_neg (by omega), if_neg (fun h => hub h.2), Out.ret_bind, conv_of_in (shr_in _ ht ht0)]
    · have hb2 := ITy.bits_lt (T := R) (U := promote R) (Nat.lt_of_lt_of_le (by omega) (promote_lg' R))
      have := R.bits_pos
      rw [if_neg (by omega), if_neg (fun h => hl h.1), Out.ret_bind, conv_of_in (shr_in _ ht ht0)]
  · have hd := ITy.digits_signed hs
    simp only [if_true, reduceCtorEq, false_and, if_false]
    by_cases h0 : t < 0
    · rw [if_pos h0, if_pos h0]
    · rw [if_neg h0, if_neg h0, if_neg (by omega), Out.ret_bind, conv_of_in (shr_in _ ht (by omega))]

theorem cGt_bits {a : Nat} {R : ITy} (hR : R.Ok) (ha : a ≤ R.digits) : cGt tUInt tInt a R.bits = false := by
  have := ok_bits hR; have := digits_le_bits R
  have hU : uac tUInt tInt = tUInt := by rw [uac_int_right]; exact promote_of_ge (by simp [tUInt])
  rw [cGt_eq (by rw [hU]; exact tUInt_in (by omega) (by omega)) (by rw [hU]; exact tUInt_in (by omega) (by omega))]
  simp; omega

theorem bitwiseOr_eq {R : ITy} (hR : R.Ok) {h : Handler} {t u : Int} (ht : R.In t) (hu : R.In u) :
    bitwiseOr R h t u = .ret (.ok (conv R (cOr R R t u))) := by
  obtain ⟨h1, h2⟩ := significantBits_eq hR ht
  obtain ⟨h3, h4⟩ := significantBits_eq hR hu
  unfold bitwiseOr
  rw [h1, h3, Out.ret_bind, Out.ret_bind]
  split <;> rw [cGt_bits hR (by omega)] <;> simp

theorem bitwiseXor_eq {R : ITy} (hR : R.Ok) {h : Handler} {t u : Int} (ht : R.In t) (hu : R.In u) :
    bitwiseXor R h t u = .ret (.ok (conv R (cXor R R t u))) := by
  obtain ⟨h1, h2⟩ := significantBits_eq hR ht
  obtain ⟨h3, h4⟩ := significantBits_eq hR hu
  unfold bitwiseXor
  rw [h1, h3, Out.ret_bind, Out.ret_bind]
  split <;> rw [cGt_bits hR (by omega)] <;> simp

theorem bitwiseAnd_eq {R : ITy} (hR : R.Ok) {h : Handler} {t u : Int} (ht : R.In t) (hu : R.In u) :
    bitwiseAnd R h t u = .ret (.ok (conv R (cAnd R R t u))) := by
  obtain ⟨h1, h2⟩ := significantBits_eq hR ht
  obtain ⟨h3, h4⟩ := significantBits_eq hR hu
  unfold bitwiseAnd
  rw [h1, h3, Out.ret_bind, Out.ret_bind]
  split <;> rw [cGt_bits hR (by omega)] <;> simp

theorem bitwiseNot_eq {R : ITy} (hR : R.Ok) {h : Handler} {t : Int} (ht : R.In t) :
    bitwiseNot R h t = .ret (.ok (conv R (cNot R t))) := by
  obtain ⟨h1, h2⟩ := significantBits_eq hR ht
  unfold bitwiseNot
  rw [h1, Out.ret_bind, cGt_bits hR (by omega)]
  simp

end
end Verif
