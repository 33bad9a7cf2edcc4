import Verif.Cpp
import Mathlib.Tactic.Linarith
import Mathlib.Tactic.Ring
import Mathlib.Tactic.Zify
import Mathlib.Tactic.ByContra

/-! Helper lemmas about the C++ integer model. -/

namespace Verif

theorem two_pow_pos (n : Nat) : (0 : Int) < 2 ^ n := Int.pow_pos (by decide)

theorem two_pow_le {m n : Nat} (h : m ≤ n) : (2 : Int) ^ m ≤ 2 ^ n := by
  have : (2 : Nat) ^ m ≤ 2 ^ n := Nat.pow_le_pow_right (by decide) h
  exact_mod_cast this

theorem two_pow_lt {m n : Nat} (h : m < n) : (2 : Int) ^ m < 2 ^ n := by
  have : (2 : Nat) ^ m < 2 ^ n := Nat.pow_lt_pow_right (by decide) h
  exact_mod_cast this

theorem two_pow_succ' (n : Nat) : (2 : Int) ^ (n + 1) = 2 * 2 ^ n := by
  rw [Int.pow_succ, Int.mul_comm]

theorem one_le_two_pow (n : Nat) : (1 : Int) ≤ 2 ^ n := two_pow_pos n

namespace ITy

theorem bits_pos (T : ITy) : 8 ≤ T.bits := by
  unfold bits
  have : 0 < 2 ^ T.lg := Nat.pow_pos (by decide)
  omega

theorem digits_signed {T : ITy} (h : T.signed = true) : T.digits + 1 = T.bits := by
  have := T.bits_pos
  simp [digits, h]; omega

theorem digits_unsigned {T : ITy} (h : T.signed = false) : T.digits = T.bits := by
  simp [digits, h]

theorem digits_ge (T : ITy) : 7 ≤ T.digits := by
  have := T.bits_pos
  unfold digits; split <;> omega

theorem min_signed {T : ITy} (h : T.signed = true) : T.min = - 2 ^ T.digits := by
  simp [min, h]

theorem min_unsigned {T : ITy} (h : T.signed = false) : T.min = 0 := by
  simp [min, h]

theorem min_eq (T : ITy) : T.min = if T.signed then - T.max - 1 else 0 := by
  unfold min max; split <;> omega

theorem max_ge (T : ITy) : 127 ≤ T.max := by
  have h := two_pow_le T.digits_ge
  unfold max; omega

theorem min_nonpos (T : ITy) : T.min ≤ 0 := by
  have := T.max_ge
  rw [min_eq]; split <;> omega

theorem min_le_max (T : ITy) : T.min ≤ T.max := by
  have := T.max_ge; have := T.min_nonpos; omega

theorem in_min (T : ITy) : T.In T.min := ⟨Int.le_refl _, T.min_le_max⟩
theorem in_max (T : ITy) : T.In T.max := ⟨T.min_le_max, Int.le_refl _⟩

theorem in_small (T : ITy) {x : Int} (h0 : 0 ≤ x) (h1 : x ≤ 127) : T.In x := by
  have := T.max_ge; have := T.min_nonpos
  exact ⟨by omega, by omega⟩

theorem in_zero (T : ITy) : T.In 0 := T.in_small (by decide) (by decide)
theorem in_one (T : ITy) : T.In 1 := T.in_small (by decide) (by decide)

theorem in_neg_one {T : ITy} (h : T.signed = true) : T.In (-1) := by
  have := T.max_ge
  refine ⟨?_, by omega⟩
  rw [min_eq]; simp [h]; omega

theorem bits_le {T U : ITy} (h : T.lg ≤ U.lg) : T.bits ≤ U.bits := by
  unfold bits
  exact Nat.mul_le_mul_left _ (Nat.pow_le_pow_right (by decide) h)

theorem bits_lt {T U : ITy} (h : T.lg < U.lg) : 2 * T.bits ≤ U.bits := by
  unfold bits
  have : 2 ^ (T.lg + 1) ≤ 2 ^ U.lg := Nat.pow_le_pow_right (by decide) h
  rw [Nat.pow_succ] at this
  omega

theorem digits_le_same {T U : ITy} (hs : T.signed = U.signed) (h : T.lg ≤ U.lg) :
    T.digits ≤ U.digits := by
  have := bits_le h
  unfold digits; rw [hs]; split <;> omega

theorem max_le_of_digits {T U : ITy} (h : T.digits ≤ U.digits) : T.max ≤ U.max := by
  have := two_pow_le h
  unfold max; omega

theorem In.mono {T U : ITy} {x : Int} (hmin : U.min ≤ T.min) (hmax : T.max ≤ U.max)
    (h : T.In x) : U.In x := ⟨by have := h.1; omega, by have := h.2; omega⟩

/-- widening with the same signedness -/
theorem In.widen {T U : ITy} {x : Int} (hs : T.signed = U.signed) (hl : T.lg ≤ U.lg)
    (h : T.In x) : U.In x := by
  have hm := max_le_of_digits (digits_le_same hs hl)
  refine h.mono ?_ hm
  rw [min_eq, min_eq, hs]; split <;> omega

/-- widening to a strictly wider signed type -/
theorem In.widen_signed {T U : ITy} {x : Int} (hs : U.signed = true) (hl : T.lg < U.lg)
    (h : T.In x) : U.In x := by
  have hb := bits_lt hl
  have hb0 := T.bits_pos
  have hd : T.digits ≤ U.digits := by unfold digits; rw [hs]; split <;> simp <;> omega
  have hm := max_le_of_digits hd
  refine h.mono ?_ hm
  rw [min_eq T, min_eq U, hs, if_pos rfl]; have := U.max_ge; split <;> omega

/-- a non-negative value fits every type with at least as many bits -/
theorem In.widen_nonneg {T U : ITy} {x : Int} (h0 : 0 ≤ x) (hd : T.digits ≤ U.digits)
    (h : T.In x) : U.In x := by
  have hm := max_le_of_digits hd
  have := U.min_nonpos; have := h.2
  exact ⟨by omega, by omega⟩

theorem In.nonneg {T : ITy} {x : Int} (hs : T.signed = false) (h : T.In x) : 0 ≤ x := by
  have := h.1; rw [min_unsigned hs] at this; exact this

end ITy

theorem pow_bits_signed {T : ITy} (h : T.signed = true) : (2 : Int) ^ T.bits = 2 * 2 ^ T.digits := by
  rw [← ITy.digits_signed h, two_pow_succ']

theorem conv_of_in {T : ITy} {x : Int} (h : T.In x) : conv T x = x := by
  unfold conv
  obtain ⟨h1, h2⟩ := h
  have hp := two_pow_pos T.digits
  split
  · rename_i hs
    have e := pow_bits_signed hs
    rw [ITy.min_signed hs] at h1
    unfold ITy.max at h2
    have e' : ((2 ^ T.bits : Nat) : Int) = 2 * 2 ^ T.digits := by
      rw [← e]; norm_cast
    apply Int.bmod_eq_of_le
    · rw [e']; omega
    · rw [e']; omega
  · rename_i hs
    have hs : T.signed = false := by simpa using hs
    rw [ITy.min_unsigned hs] at h1
    unfold ITy.max at h2
    rw [ITy.digits_unsigned hs] at h2
    exact Int.emod_eq_of_lt h1 (by omega)

theorem conv_in (T : ITy) (x : Int) : T.In (conv T x) := by
  unfold conv ITy.In
  split
  · rename_i hs
    have e := pow_bits_signed hs
    have e' : ((2 ^ T.bits : Nat) : Int) = 2 * 2 ^ T.digits := by
      rw [← e]; norm_cast
    have hpos : (0 : Nat) < 2 ^ T.bits := Nat.pow_pos (by decide)
    have h1 := Int.le_bmod (x := x) hpos
    have h2 := Int.bmod_lt (x := x) hpos
    rw [ITy.min_signed hs]; unfold ITy.max
    rw [e'] at h1 h2
    have hp := two_pow_pos T.digits
    constructor <;> omega
  · rename_i hs
    have hs : T.signed = false := by simpa using hs
    have hpos := two_pow_pos T.bits
    rw [ITy.min_unsigned hs]; unfold ITy.max
    rw [ITy.digits_unsigned hs]
    exact ⟨Int.emod_nonneg _ (by omega), by have := Int.emod_lt_of_pos x hpos; omega⟩

theorem conv_idem (T : ITy) (x : Int) : conv T (conv T x) = conv T x := conv_of_in (conv_in T x)

theorem conv_eq_iff {T : ITy} {x : Int} : conv T x = x ↔ T.In x :=
  ⟨fun h => h ▸ conv_in T x, conv_of_in⟩

section
variable [Arch]

theorem promote_signed {T : ITy} (h : T.signed = true) : (promote T).signed = true := by
  unfold promote; split <;> simp [h, tInt]

theorem promote_lg (T : ITy) : T.lg ≤ (promote T).lg := by
  unfold promote; split <;> simp [tInt]; omega

theorem promote_lg' (T : ITy) : Arch.intLg ≤ (promote T).lg := by
  unfold promote; split
  · simp [tInt]
  · omega

theorem promote_promote (T : ITy) : promote (promote T) = promote T := by
  have := promote_lg' T
  rw [promote, if_neg (by omega)]

theorem promote_of_ge {T : ITy} (h : Arch.intLg ≤ T.lg) : promote T = T := by
  rw [promote, if_neg (by omega)]

theorem promote_tInt : promote tInt = tInt := promote_of_ge (by simp [tInt])

theorem in_promote {T : ITy} {x : Int} (h : T.In x) : (promote T).In x := by
  unfold promote
  split
  · exact h.widen_signed rfl (by simpa [tInt])
  · exact h

theorem uac_self (T : ITy) : uac T T = promote T := by
  simp [uac]

theorem uac_promote_left (T U : ITy) : uac (promote T) U = uac T U := by
  simp [uac, promote_promote]

theorem uac_promote_right (T U : ITy) : uac T (promote U) = uac T U := by
  simp [uac, promote_promote]

@[simp] theorem tInt_signed : tInt.signed = true := rfl
@[simp] theorem tInt_lg : tInt.lg = Arch.intLg := rfl

theorem uac_int_right (T : ITy) : uac T tInt = promote T := by
  have h := promote_lg' T
  unfold uac
  rw [promote_tInt]
  rcases hb : (promote T).signed with _ | _
  · simp [Nat.not_lt.mpr h]; simp [hb]
  · simp [Nat.not_lt.mpr h]; simp [hb]

theorem uac_comm (T U : ITy) : uac T U = uac U T := by
  unfold uac
  generalize promote T = P
  generalize promote U = Q
  rcases P with ⟨sp, lp⟩; rcases Q with ⟨sq, lq⟩
  cases sp <;> cases sq <;> simp <;> (repeat' split) <;> simp <;> omega

theorem uac_int_left (T : ITy) : uac tInt T = promote T := by
  rw [uac_comm, uac_int_right]

theorem uac_lg_left (T U : ITy) : T.lg ≤ (uac T U).lg := by
  have h := promote_lg T
  unfold uac
  simp only
  repeat' split
  all_goals omega

theorem uac_lg_right (T U : ITy) : U.lg ≤ (uac T U).lg := by
  rw [uac_comm]; exact uac_lg_left U T

theorem uac_ok {T U : ITy} (hT : T.Ok) (hU : U.Ok) : (uac T U).Ok := by
  have := Arch.intMax
  unfold ITy.Ok at *
  unfold uac promote tInt
  simp only
  repeat' split
  all_goals assumption

theorem promote_ok {T : ITy} (hT : T.Ok) : (promote T).Ok := by
  have := uac_ok hT hT; rwa [uac_self] at this

/-- both signed: the common type is signed and holds both -/
theorem uac_signed {T U : ITy} (hT : T.signed = true) (hU : U.signed = true) :
    (uac T U).signed = true := by
  have h1 := promote_signed hT
  have h2 := promote_signed hU
  unfold uac; simp only [h1, h2]; simp; split <;> assumption

/-- values of operands with equal signedness are preserved by the usual arithmetic conversions -/
theorem in_uac_left_signed {T U : ITy} {x : Int} (hT : T.signed = true) (hU : U.signed = true)
    (h : T.In x) : (uac T U).In x :=
  h.widen (by rw [hT, uac_signed hT hU]) (uac_lg_left T U)

theorem in_uac_left_nonneg {T U : ITy} {x : Int} (h0 : 0 ≤ x) (h : T.In x) : (uac T U).In x := by
  have hp := in_promote h
  unfold uac
  simp only
  repeat' split
  · rename_i h1 h2; exact hp.widen h1 (by omega)
  · exact hp
  · exact hp
  · rename_i h1 h2 h3
    refine hp.widen_nonneg h0 ?_
    have hq : (promote U).signed = false := by
      cases h : (promote U).signed <;> simp_all
    have := ITy.bits_le (T := promote T) (U := promote U) (by omega)
    have := ITy.digits_signed h2
    rw [ITy.digits_unsigned hq]; omega
  · rename_i h1 h2 h3
    have hq : (promote U).signed = true := by
      cases h : (promote U).signed <;> simp_all
    exact hp.widen_signed hq h3
  · exact hp

theorem in_uac_right_nonneg {T U : ITy} {x : Int} (h0 : 0 ≤ x) (h : U.In x) : (uac T U).In x := by
  rw [uac_comm]; exact in_uac_left_nonneg h0 h

theorem in_uac_right_signed {T U : ITy} {x : Int} (hT : T.signed = true) (hU : U.signed = true)
    (h : U.In x) : (uac T U).In x := by
  rw [uac_comm]; exact in_uac_left_signed hU hT h

theorem in_uac_self {T : ITy} {x : Int} (h : T.In x) : (uac T T).In x := by
  rw [uac_self]; exact in_promote h

omit [Arch] in
theorem cWrap_of_in {R : ITy} {v : Int} (h : R.In v) : cWrap R v = .ret v := by
  unfold cWrap
  split
  · first | rw [if_pos h] | simp_all
  · rw [conv_of_in h]

theorem cAdd_eq {T U : ITy} {t u : Int} (ht : (uac T U).In t) (hu : (uac T U).In u)
    (h : (uac T U).In (t + u)) : cAdd T U t u = .ret (t + u) := by
  rw [cAdd, conv_of_in ht, conv_of_in hu, cWrap_of_in h]

theorem cSub_eq {T U : ITy} {t u : Int} (ht : (uac T U).In t) (hu : (uac T U).In u)
    (h : (uac T U).In (t - u)) : cSub T U t u = .ret (t - u) := by
  rw [cSub, conv_of_in ht, conv_of_in hu, cWrap_of_in h]

theorem cMul_eq {T U : ITy} {t u : Int} (ht : (uac T U).In t) (hu : (uac T U).In u)
    (h : (uac T U).In (t * u)) : cMul T U t u = .ret (t * u) := by
  rw [cMul, conv_of_in ht, conv_of_in hu, cWrap_of_in h]

theorem cDiv_eq {T U : ITy} {t u : Int} (ht : (uac T U).In t) (hu : (uac T U).In u) (h0 : u ≠ 0)
    (h : (uac T U).In (t.tdiv u)) : cDiv T U t u = .ret (t.tdiv u) := by
  simp only [cDiv]
  rw [conv_of_in ht, conv_of_in hu, if_neg h0, cWrap_of_in h]

theorem cMod_eq {T U : ITy} {t u : Int} (ht : (uac T U).In t) (hu : (uac T U).In u) (h0 : u ≠ 0)
    (h : (uac T U).signed = true → (uac T U).In (t.tdiv u)) : cMod T U t u = .ret (t.tmod u) := by
  simp only [cMod]
  rw [conv_of_in ht, conv_of_in hu, if_neg h0, if_neg (fun hh => hh.2 (h hh.1))]

theorem cNeg_eq {T : ITy} {t : Int} (ht : (promote T).In t)
    (h : (promote T).In (-t)) : cNeg T t = .ret (-t) := by
  rw [cNeg, conv_of_in ht, cWrap_of_in h]

theorem cLt_eq {T U : ITy} {t u : Int} (ht : (uac T U).In t) (hu : (uac T U).In u) :
    cLt T U t u = decide (t < u) := by
  rw [cLt, conv_of_in ht, conv_of_in hu]

theorem cGt_eq {T U : ITy} {t u : Int} (ht : (uac T U).In t) (hu : (uac T U).In u) :
    cGt T U t u = decide (u < t) := by
  rw [cGt, conv_of_in ht, conv_of_in hu]

theorem cLe_eq {T U : ITy} {t u : Int} (ht : (uac T U).In t) (hu : (uac T U).In u) :
    cLe T U t u = decide (t ≤ u) := by
  rw [cLe, conv_of_in ht, conv_of_in hu]

theorem cGe_eq {T U : ITy} {t u : Int} (ht : (uac T U).In t) (hu : (uac T U).In u) :
    cGe T U t u = decide (u ≤ t) := by
  rw [cGe, conv_of_in ht, conv_of_in hu]

theorem cEq_eq {T U : ITy} {t u : Int} (ht : (uac T U).In t) (hu : (uac T U).In u) :
    cEq T U t u = decide (t = u) := by
  rw [cEq, conv_of_in ht, conv_of_in hu]

theorem cNe_eq {T U : ITy} {t u : Int} (ht : (uac T U).In t) (hu : (uac T U).In u) :
    cNe T U t u = decide (t ≠ u) := by
  rw [cNe, conv_of_in ht, conv_of_in hu]

end
end Verif
