import Verif.ExactSpec
import Verif.Props.Extended
import Verif.Props.Extended2
import Verif.Props.Utility

/-!
Property C75: for each operation that does not do what it says for all operands, exactly the operands for which it does
not. Each theorem is an equivalence "right if and only if ...", for all types and all operands.
-/

namespace Verif.Props
open Spec
section
variable [Arch]

private theorem out_iff {α : Type} {o : Out α} {c : α} {P : α → Prop} (h : o = .ret c) :
    (∃ c, o = .ret c ∧ P c) ↔ P c := by
  subst h
  exact ⟨fun ⟨_, h, k⟩ => by cases h; exact k, fun k => ⟨_, rfl, k⟩⟩

private theorem right_vague {R : ITy} {op : CR → CR → Out CR} {dom : Int → Prop} {f : Int → Int → Int} {t u : CR}
    (h : op t u = .ret (.err .range_error)) : Right2 R op dom f t u :=
  fun _ _ _ _ _ => ⟨_, h, trivial⟩

/-- a constant outcome -/
private theorem right_iff {R : ITy} {op : CR → CR → Out CR} {dom : Int → Prop} {f : Int → Int → Int} {t u c : CR}
    (h : op t u = .ret c) :
    Right2 R op dom f t u ↔ ∀ x y, Describes R t x → Describes R u y → dom y → Describes R c (f x y) :=
  forall₅_congr fun _ _ _ _ _ => out_iff h

private theorem Vague.ne {c : CR} (h : Vague c) : (∀ a, c ≠ .ok a) ∧ c ≠ below ∧ c ≠ above := by
  obtain ⟨e, rfl, h1, h2⟩ := h
  exact ⟨fun _ => by simp, by simpa using h2, by simpa using h1⟩

omit [Arch] in
private theorem half {a b : Int} (ha : 0 ≤ a) (hb : 2 ≤ b) : 0 ≤ a.tdiv b ∧ 2 * a.tdiv b ≤ a := by
  have h := Int.mul_tdiv_add_tmod a b
  have h1 := Int.tmod_nonneg b ha
  have h2 : 0 ≤ a.tdiv b := Int.tdiv_nonneg ha (by omega)
  exact ⟨h2, by nlinarith⟩

omit [Arch] in
private theorem describes_exactOr {R : ITy} {v x : Int} (h : Describes R (exactOr R.min R.max v) x)
    (h0 : R.In x) : x = v := by
  unfold exactOr at h
  have h1 := h0.1; have h2 := h0.2
  split_ifs at h
  · have : R.max < x := h
    omega
  · have : x < R.min := h
    omega
  · exact h.2

private theorem roundOut_ub {T : ITy} (hT : T.Ok) {t : Int} (ht : T.In t) (hs : T.signed = true) (hl : Arch.intLg ≤ T.lg)
    (h : 2 ^ T.digits ≤ 2 * t ∨ 2 * t < - 2 ^ T.digits) : roundOut T t = .fault .ub := by
  have hb := ok_bits hT
  have hd := T.digits_ge
  have hdb := ITy.digits_signed hs
  have hp : promote T = T := promote_of_ge hl
  have e1 := ITy.min_eq T
  rw [hs, if_pos rfl] at e1
  have e2 : (2 : Int) ^ T.digits = 2 * 2 ^ (T.digits - 1) := by
    rw [← two_pow_succ', show T.digits - 1 + 1 = T.digits by omega]
  have hsb : sbits t = T.digits := by
    have l := sbits_le_digits ht
    by_contra hc
    have hle := two_pow_le (show sbits t ≤ T.digits - 1 by omega)
    rcases Int.lt_or_le t 0 with h0 | h0
    · have := neg_two_pow_sbits_le h0; omega
    · have := lt_two_pow_sbits h0; omega
  have hc1 : cShl T u8 1 (T.digits : Int) = .ret T.min := by
    have hcd : conv (promote u8) (T.digits : Int) = T.digits :=
      conv_of_in (promote_in_small (by omega) (by omega))
    have hin : T.toUnsigned.In (2 ^ T.digits) := by
      have h1 : T.toUnsigned.digits = T.bits := by unfold ITy.digits ITy.toUnsigned; rfl
      have := two_pow_lt (show T.digits < T.bits by omega)
      refine ⟨by have := T.toUnsigned.min_nonpos; have := two_pow_pos T.digits; omega, ?_⟩
      unfold ITy.max; rw [h1]; omega
    unfold cShl
    dsimp only
    rw [hp, hcd, conv_of_in (ITy.in_one T), if_neg (by omega), if_pos hs, if_neg (by decide), Int.toNat_natCast,
      Int.one_mul, if_pos hin]
    obtain ⟨q, hq⟩ := conv_congr T (2 ^ T.digits)
    have hci := conv_in T (2 ^ T.digits)
    have h1 := hci.1; have h2 := hci.2
    have e3 : T.max = 2 ^ T.digits - 1 := rfl
    have e4 : (2 : Int) ^ T.bits = 2 * 2 ^ T.digits := by rw [← hdb, two_pow_succ']
    have hpp := two_pow_pos T.digits
    rw [e4] at hq
    have : q = -1 := by
      have k1 : q < 0 := by by_contra hc; nlinarith
      have k2 : -2 < q := by by_contra hc; nlinarith
      omega
    subst this
    congr 1
    omega
  have hc2 : cSub (promote T) tInt T.min 1 = .fault .ub := by
    unfold cSub
    rw [uac_promote_left, uac_int_right, hp, conv_of_in T.in_min, conv_of_in T.in_one]
    unfold cWrap
    rw [if_pos hs, if_neg (fun h => by have := h.1; omega)]
  unfold roundOut
  rw [cGe_zero ht]
  rcases Int.lt_or_le t 0 with h0 | h0
  · have hin1 : T.In (-t - 1) := ⟨by have := ht.2; omega, by have := ht.1; omega⟩
    obtain ⟨e, _⟩ := significantBits_eq (promote_ok hT) (in_promote hin1)
    rw [← sbits_neg h0] at e
    simp only [show ¬ 0 ≤ t by omega, decide_false, if_false, Bool.false_eq_true]
    rw [cNot_signed hs ht, e, Out.ret_bind, conv_of_in (u8_in (by omega) (by omega)), if_pos (by omega), hsb, hc1,
      Out.ret_bind, hc2]
    rfl
  · obtain ⟨e, _⟩ := significantBits_eq hT ht
    simp only [h0, decide_true, if_true]
    rw [e, Out.ret_bind, conv_of_in (u8_in (by omega) (by omega)), if_pos (by omega), hsb, hc1,
      Out.ret_bind, hc2]
    rfl

/-! ### `+` -/

/-- C75, addition of extended integers: wrong exactly when a value is added to a marker of the opposite side. -/
theorem C75_add (R : ITy) (t u : CR) (ht : Proper R t) (hu : Proper R u) :
    Right2 R (crAdd R) (fun _ => True) (· + ·) t u ↔
      ¬ ((∃ a, 0 < a ∧ ((t = .ok a ∧ u = below) ∨ (t = below ∧ u = .ok a))) ∨
         (∃ a, a < 0 ∧ ((t = .ok a ∧ u = above) ∨ (t = above ∧ u = .ok a)))) := by
  have hz := R.min_nonpos; have hm := R.max_ge
  constructor
  · rintro h (⟨a, h0, ⟨rfl, rfl⟩ | ⟨rfl, rfl⟩⟩ | ⟨a, h0, ⟨rfl, rfl⟩ | ⟨rfl, rfl⟩⟩)
    · have ha : R.In a := ht
      have := (right_iff rfl).1 h a (R.min - 1) ⟨ha, rfl⟩ (show R.min - 1 < R.min by omega) trivial
      have : a + (R.min - 1) < R.min := this
      omega
    · have ha : R.In a := hu
      have := (right_iff rfl).1 h (R.min - 1) a (show R.min - 1 < R.min by omega) ⟨ha, rfl⟩ trivial
      have : R.min - 1 + a < R.min := this
      omega
    · have ha : R.In a := ht
      have := (right_iff rfl).1 h a (R.max + 1) ⟨ha, rfl⟩ (show R.max < R.max + 1 by omega) trivial
      have : R.max < a + (R.max + 1) := this
      omega
    · have ha : R.In a := hu
      have := (right_iff rfl).1 h (R.max + 1) a (show R.max < R.max + 1 by omega) ⟨ha, rfl⟩ trivial
      have : R.max < R.max + 1 + a := this
      omega
  · intro h x y hx hy _
    refine C15_add_partial R t u x y hx hy ?_ ?_ ?_ ?_
    · rintro a rfl rfl; by_contra hc; exact h (Or.inl ⟨a, by omega, Or.inl ⟨rfl, rfl⟩⟩)
    · rintro a rfl rfl; by_contra hc; exact h (Or.inr ⟨a, by omega, Or.inl ⟨rfl, rfl⟩⟩)
    · rintro a rfl rfl; by_contra hc; exact h (Or.inl ⟨a, by omega, Or.inr ⟨rfl, rfl⟩⟩)
    · rintro a rfl rfl; by_contra hc; exact h (Or.inr ⟨a, by omega, Or.inr ⟨rfl, rfl⟩⟩)

example : Right2 i8 (@crAdd lp64 i8) (fun _ => True) (· + ·) (.ok 0) below := by
  rw [@C75_add lp64 _ _ _ (by decide) (by decide)]; simp
example : ¬ Right2 i8 (@crAdd lp64 i8) (fun _ => True) (· + ·) (.ok 1) below := by
  rw [@C75_add lp64 _ _ _ (by decide) (by decide)]; simp

/-! ### `-` -/

/-- C75, subtraction: a marker minus a value is wrong when the value pulls it back towards the range; a value minus a
marker is wrong except: from -1 on in signed types and only at the maximum in unsigned types (minus "below"), negative
values in signed types and all values in unsigned types (minus "above"). -/
theorem C75_sub (R : ITy) (t u : CR) (ht : Proper R t) (hu : Proper R u) :
    Right2 R (crSub R) (fun _ => True) (· - ·) t u ↔
      ¬ ((∃ b, b < 0 ∧ t = below ∧ u = .ok b) ∨ (∃ b, 0 < b ∧ t = above ∧ u = .ok b) ∨
         (∃ a, t = .ok a ∧ u = below ∧ (if R.signed then a < -1 else a < R.max)) ∨
         (∃ a, t = .ok a ∧ u = above ∧ R.signed = true ∧ 0 ≤ a)) := by
  have hz := R.min_nonpos; have hm := R.max_ge
  have e := ITy.min_eq R
  constructor
  · rintro h (⟨b, h0, rfl, rfl⟩ | ⟨b, h0, rfl, rfl⟩ | ⟨a, rfl, rfl, h0⟩ | ⟨a, rfl, rfl, hs, h0⟩)
    · have ha : R.In b := hu
      have : R.min - 1 - b < R.min :=
        (right_iff rfl).1 h (R.min - 1) b (show R.min - 1 < R.min by omega) ⟨ha, rfl⟩ trivial
      omega
    · have ha : R.In b := hu
      have : R.max < R.max + 1 - b :=
        (right_iff rfl).1 h (R.max + 1) b (show R.max < R.max + 1 by omega) ⟨ha, rfl⟩ trivial
      omega
    · have ha : R.In a := ht
      have : R.max < a - (R.min - 1) :=
        (right_iff rfl).1 h a (R.min - 1) ⟨ha, rfl⟩ (show R.min - 1 < R.min by omega) trivial
      rcases hs : R.signed with _ | _ <;> simp only [hs, if_true, if_false, Bool.false_eq_true] at h0 e <;> omega
    · have ha : R.In a := ht
      have : a - (R.max + 1) < R.min :=
        (right_iff rfl).1 h a (R.max + 1) ⟨ha, rfl⟩ (show R.max < R.max + 1 by omega) trivial
      rw [hs, if_pos rfl] at e
      omega
  · intro h x y hx hy _
    by_cases hc : R.signed = false ∧ t = .ok R.max ∧ u = below
    · obtain ⟨hs, rfl, rfl⟩ := hc
      obtain ⟨_, rfl⟩ := hx
      have hy : y < R.min := hy
      rw [hs, if_neg (by decide)] at e
      exact ⟨_, rfl, show R.max < R.max - y by omega⟩
    refine C15_sub_partial R t u x y hx hy ?_ ?_ ?_ ?_
    · rintro a rfl rfl
      have ha : R.In a := ht
      have ha2 := ha.2
      have h' : ¬ (if R.signed then a < -1 else a < R.max) := fun k => h (Or.inr (Or.inr (Or.inl ⟨a, rfl, rfl, k⟩)))
      rcases hs : R.signed with _ | _ <;> simp only [hs, if_true, if_false, Bool.false_eq_true] at h'
      · exact absurd ⟨hs, by rw [show a = R.max by omega], rfl⟩ hc
      · exact ⟨rfl, by omega⟩
    · rintro a rfl rfl
      rcases hs : R.signed with _ | _
      · exact Or.inl rfl
      · refine Or.inr ?_; by_contra hc; exact h (Or.inr (Or.inr (Or.inr ⟨a, rfl, rfl, hs, by omega⟩)))
    · rintro a rfl rfl; by_contra hc; exact h (Or.inl ⟨a, by omega, rfl, rfl⟩)
    · rintro a rfl rfl; by_contra hc; exact h (Or.inr (Or.inl ⟨a, by omega, rfl, rfl⟩))

example : Right2 i8 (@crSub lp64 i8) (fun _ => True) (· - ·) (.ok (-1)) below := by
  rw [@C75_sub lp64 _ _ _ (by decide) (by decide)]; simp [i8]
example : Right2 u8 (@crSub lp64 u8) (fun _ => True) (· - ·) (.ok 255) below := by
  rw [@C75_sub lp64 _ _ _ (by decide) (by decide)]; simp; decide
example : ¬ Right2 u8 (@crSub lp64 u8) (fun _ => True) (· - ·) (.ok 254) below := by
  rw [@C75_sub lp64 _ _ _ (by decide) (by decide)]; simp; decide

/-- C75, unary minus: right exactly for all values, unknown errors, "below" of a signed type and "above" of an unsigned
type. -/
theorem C75_neg (R : ITy) (t : CR) (ht : Proper R t) :
    Right1 R (crNeg R) (- ·) t ↔ ¬ ((t = below ∧ R.signed = false) ∨ (t = above ∧ R.signed = true)) := by
  have hz := R.min_nonpos; have hm := R.max_ge
  have e := ITy.min_eq R
  constructor
  · rintro h (⟨rfl, hs⟩ | ⟨rfl, hs⟩)
    · have : R.max < -(R.min - 1) := (out_iff (P := fun c => Describes R c (-(R.min - 1))) rfl).1 (h (R.min - 1) (show R.min - 1 < R.min by omega))
      rw [hs, if_neg (by decide)] at e
      omega
    · have : -(R.max + 1) < R.min := (out_iff (P := fun c => Describes R c (-(R.max + 1))) rfl).1 (h (R.max + 1) (show R.max < R.max + 1 by omega))
      rw [hs, if_pos rfl] at e
      omega
  · intro h x hx
    refine C15_neg_partial R t x hx ?_ ?_
    · rintro rfl; rcases hs : R.signed with _ | _
      · exact absurd (Or.inl ⟨rfl, hs⟩) h
      · rfl
    · rintro rfl hs; exact absurd (Or.inr ⟨rfl, hs⟩) h

example : Right1 u8 (@crNeg lp64 u8) (- ·) above ∧ ¬ Right1 i8 (@crNeg lp64 i8) (- ·) above := by
  rw [@C75_neg lp64 _ _ (by decide), @C75_neg lp64 _ _ (by decide)]; simp [i8, u8]

/-! ### `*` -/

/-- C75, multiplication: wrong exactly for -1 times "above" (either order) and for two "below" of an unsigned type. -/
theorem C75_mul (R : ITy) (hR : R.Ok) (t u : CR) (ht : Proper R t) (hu : Proper R u) :
    Right2 R (crMul R) (fun _ => True) (· * ·) t u ↔
      ¬ ((t = .ok (-1) ∧ u = above) ∨ (t = above ∧ u = .ok (-1)) ∨ (R.signed = false ∧ t = below ∧ u = below)) := by
  have hz := R.min_nonpos; have hm := R.max_ge
  have e := ITy.min_eq R
  constructor
  · rintro h (⟨rfl, rfl⟩ | ⟨rfl, rfl⟩ | ⟨hs, rfl, rfl⟩)
    · have ha : R.In (-1) := ht
      have : -1 * (R.max + 1) < R.min :=
        (right_iff (crMul_ok_pos ha)).1 h (-1) (R.max + 1) ⟨ha, rfl⟩ (show R.max < R.max + 1 by omega) trivial
      have := ha.1
      split at e <;> omega
    · have ha : R.In (-1) := hu
      have : (R.max + 1) * (-1) < R.min :=
        (right_iff (crMul_pos_ok ha)).1 h (R.max + 1) (-1) (show R.max < R.max + 1 by omega) ⟨ha, rfl⟩ trivial
      have := ha.1
      split at e <;> omega
    · rw [hs, if_neg (by decide)] at e
      have : R.max < (-1) * (-1) :=
        (right_iff rfl).1 h (-1) (-1) (show -1 < R.min by omega) (show -1 < R.min by omega) trivial
      omega
  · intro h x y hx hy _
    refine C15_mul_partial R hR t u x y hx hy ?_ ?_ ?_
    · rcases hs : R.signed with _ | _
      · exact Or.inr fun k => h (Or.inr (Or.inr ⟨hs, k⟩))
      · exact Or.inl rfl
    · exact fun k => h (Or.inl ⟨k.1, k.2.1⟩)
    · exact fun k => h (Or.inr (Or.inl ⟨k.2.1, k.1⟩))

example : Right2 i8 (@crMul lp64 i8) (fun _ => True) (· * ·) (.ok (-2)) above := by
  rw [@C75_mul lp64 _ (by decide) _ _ (by decide) (by decide)]; simp [i8]

/-! ### `/` -/

private theorem crDiv_marker_ok {R : ITy} {b : Int} (hb : R.In b) (h0 : b ≠ 0) :
    crDiv R below (.ok b) = .ret (if b < 0 then above else below) ∧
    crDiv R above (.ok b) = .ret (if b < 0 then below else above) := by
  unfold crDiv
  rcases Int.lt_or_gt_of_ne h0 with h | h
  · rw [prodFlag_lt hb h, if_pos h, if_pos h]; exact ⟨rfl, rfl⟩
  · rw [prodFlag_gt hb h, if_neg (by omega), if_neg (by omega)]; exact ⟨rfl, rfl⟩

/-- C75, division (divisor not 0). The operands for which the outcome is wrong:
* a value other than 0 over "below" of an unsigned type; the minimum of a signed type over "above";
* "below" over "above" and the reverse;
* "below" over a value other than 1 and -1; "above" over a value other than 1. -/
theorem C75_div (R : ITy) (t u : CR) (ht : Proper R t) (hu : Proper R u) :
    Right2 R (crDiv R) (· ≠ 0) Int.tdiv t u ↔
      ¬ ((∃ a, a ≠ 0 ∧ t = .ok a ∧ u = below ∧ R.signed = false) ∨ (t = .ok R.min ∧ u = above ∧ R.signed = true) ∨
         (t = below ∧ u = above) ∨ (t = above ∧ u = below) ∨
         (∃ b, b ≠ 0 ∧ u = .ok b ∧ ((t = below ∧ b ≠ 1 ∧ b ≠ -1) ∨ (t = above ∧ b ≠ 1)))) := by
  have hz := R.min_nonpos; have hm := R.max_ge
  have e := ITy.min_eq R
  constructor
  · rintro h (⟨a, h0, rfl, rfl, hs⟩ | ⟨rfl, rfl, hs⟩ | ⟨rfl, rfl⟩ | ⟨rfl, rfl⟩ | ⟨b, h0, rfl, ⟨rfl, h1, h2⟩ | ⟨rfl, h1⟩⟩)
    · have ha : R.In a := ht
      rw [hs, if_neg (by decide)] at e
      have := ((right_iff (crDiv_ok_marker ha).1).1 h a (-1) ⟨ha, rfl⟩ (show -1 < R.min by omega) (by decide)).2
      rw [Int.tdiv_neg, Int.tdiv_one] at this
      omega
    · have ha : R.In R.min := ht
      rw [hs, if_pos rfl] at e
      have := ((right_iff (crDiv_ok_marker ha).2).1 h R.min (R.max + 1) ⟨ha, rfl⟩ (show R.max < R.max + 1 by omega)
        (by omega)).2
      rw [show R.min = -(R.max + 1) by omega, Int.neg_tdiv, Int.tdiv_self (by omega)] at this
      omega
    · have := (right_iff rfl).1 h (R.min - 1) (R.max + 3) (show R.min - 1 < R.min by omega)
        (show R.max < R.max + 3 by omega) (by omega)
      have this : (R.min - 1).tdiv (R.max + 3) < R.min := this
      rw [tdiv_eq_zero_of_abs (by split at e <;> omega) (by omega) (by omega) (by omega)] at this
      omega
    · have := (right_iff rfl).1 h (R.max + 1) (R.min - R.max - 3) (show R.max < R.max + 1 by omega)
        (show R.min - R.max - 3 < R.min by omega) (by omega)
      have this : (R.max + 1).tdiv (R.min - R.max - 3) < R.min := this
      rw [tdiv_eq_zero_of_abs (by omega) (by omega) (by omega) (by omega)] at this
      omega
    · have hb : R.In b := hu
      have hb1 := hb.1
      have hx : R.min - 1 < R.min := by omega
      have := (right_iff (crDiv_marker_ok hb h0).1).1 h (R.min - 1) b hx ⟨hb, rfl⟩ h0
      split_ifs at this with h3
      · have this : R.max < (R.min - 1).tdiv b := this
        have k := half (a := -(R.min - 1)) (b := -b) (by omega) (by omega)
        rw [Int.tdiv_neg, Int.neg_tdiv] at k
        split at e <;> omega
      · have this : (R.min - 1).tdiv b < R.min := this
        have k := half (a := -(R.min - 1)) (b := b) (by omega) (by omega)
        rw [Int.neg_tdiv] at k
        split at e <;> omega
    · have hb : R.In b := hu
      have hb1 := hb.1
      have hx : R.max < R.max + 1 := by omega
      have := (right_iff (crDiv_marker_ok hb h0).2).1 h (R.max + 1) b hx ⟨hb, rfl⟩ h0
      split_ifs at this with h3
      · have this : (R.max + 1).tdiv b < R.min := this
        have k := tdiv_nonneg_bounds (a := R.max + 1) (b := -b) (by omega) (by omega)
        rw [Int.tdiv_neg] at k
        split at e <;> omega
      · have this : R.max < (R.max + 1).tdiv b := this
        have k := half (a := R.max + 1) (b := b) (by omega) (by omega)
        omega
  · intro h
    rcases t.cases4 with ⟨a, rfl⟩ | rfl | rfl | hv
    · have ha : R.In a := ht
      intro x y hx hy h0
      obtain ⟨_, rfl⟩ := hx
      by_cases hc : R.signed = false ∧ u = below
      · obtain ⟨hs, rfl⟩ := hc
        have : x = 0 := by by_contra hc; exact h (Or.inl ⟨x, hc, rfl, rfl, hs⟩)
        subst this
        exact ⟨_, (crDiv_ok_marker ha).1, ha, Int.zero_tdiv y⟩
      · refine C45_div_partial R x u y ha hy h0 ?_ ?_
        · rintro rfl; rcases hs : R.signed with _ | _
          · exact absurd ⟨hs, rfl⟩ hc
          · rfl
        · rintro ⟨rfl, _, rfl, hs⟩; exact h (Or.inr (Or.inl ⟨rfl, rfl, hs⟩))
    · rcases u.cases4 with ⟨b, rfl⟩ | rfl | rfl | hv
      · have hb : R.In b := hu
        intro x y hx hy h0
        obtain ⟨_, rfl⟩ := hy
        have hx : x < R.min := hx
        have hb1 := hb.1
        refine ⟨_, (crDiv_marker_ok hb h0).1, ?_⟩
        have : y = 1 ∨ y = -1 := by
          by_contra hc
          exact h (Or.inr (Or.inr (Or.inr (Or.inr ⟨y, h0, rfl, Or.inl ⟨rfl, by omega, by omega⟩⟩))))
        rcases this with rfl | rfl
        · rw [if_neg (by decide), Int.tdiv_one]; exact hx
        · rw [if_pos (by decide), Int.tdiv_neg, Int.tdiv_one]
          show R.max < -x
          split at e <;> omega
      · exact right_vague rfl
      · exact absurd (Or.inr (Or.inr (Or.inl ⟨rfl, rfl⟩))) h
      · exact right_vague (crDiv_vague (Or.inr hv))
    · rcases u.cases4 with ⟨b, rfl⟩ | rfl | rfl | hv
      · have hb : R.In b := hu
        intro x y hx hy h0
        obtain ⟨_, rfl⟩ := hy
        refine ⟨_, (crDiv_marker_ok hb h0).2, ?_⟩
        have : y = 1 := by
          by_contra hc
          exact h (Or.inr (Or.inr (Or.inr (Or.inr ⟨y, h0, rfl, Or.inr ⟨rfl, hc⟩⟩))))
        subst this
        rw [if_neg (by decide), Int.tdiv_one]; exact hx
      · exact absurd (Or.inr (Or.inr (Or.inr (Or.inl ⟨rfl, rfl⟩)))) h
      · exact right_vague rfl
      · exact right_vague (crDiv_vague (Or.inr hv))
    · exact right_vague (crDiv_vague (Or.inl hv))

example : Right2 i8 (@crDiv lp64 i8) (· ≠ 0) Int.tdiv below (.ok (-1)) := by
  rw [@C75_div lp64 _ _ _ (by decide) (by decide)]; simp
example : ¬ Right2 i8 (@crDiv lp64 i8) (· ≠ 0) Int.tdiv above (.ok (-1)) := by
  rw [@C75_div lp64 _ _ _ (by decide) (by decide)]; simp

/-! ### `%` -/

private theorem mod_marker_value {R : ITy} {a : Int} (ha : R.In a) :
    crMod R (.ok a) below = .ret (.ok a) ∧ crMod R (.ok a) above = .ret (.ok a) := by
  unfold crMod
  rcases Int.lt_trichotomy a 0 with h1 | h1 | h1
  · rw [prodFlag_lt ha h1]; exact ⟨rfl, rfl⟩
  · subst h1; rw [prodFlag_zero]; exact ⟨rfl, rfl⟩
  · rw [prodFlag_gt ha h1]; exact ⟨rfl, rfl⟩

private theorem mod_value_marker {R : ITy} {b : Int} (hb : R.In b) (h0 : b ≠ 0) :
    crMod R below (.ok b) = .ret (exactOr R.min R.max (1 - b)) ∧
    crMod R above (.ok b) = .ret (exactOr R.min R.max (b - 1)) := by
  unfold crMod
  rcases Int.lt_or_gt_of_ne h0 with h | h
  · rw [prodFlag_lt hb h]; exact ⟨make_sub R.in_one hb, make_sub hb R.in_one⟩
  · rw [prodFlag_gt hb h]; exact ⟨make_sub R.in_one hb, make_sub hb R.in_one⟩

/-- C75, remainder (divisor not 0). The operands for which the outcome is wrong:
* the minimum by the minimum and the minimum by "above" (signed types); a value other than 0 by "below" (unsigned types);
* any marker by a value other than 1. -/
theorem C75_mod (R : ITy) (t u : CR) (ht : Proper R t) (hu : Proper R u) :
    Right2 R (crMod R) (· ≠ 0) Int.tmod t u ↔
      ¬ ((R.signed = true ∧ t = .ok R.min ∧ (u = .ok R.min ∨ u = above)) ∨
         (∃ a, a ≠ 0 ∧ t = .ok a ∧ u = below ∧ R.signed = false) ∨
         (∃ b, b ≠ 0 ∧ b ≠ 1 ∧ u = .ok b ∧ (t = below ∨ t = above))) := by
  have hz := R.min_nonpos; have hm := R.max_ge
  have e := ITy.min_eq R
  constructor
  · rintro h (⟨hs, rfl, rfl | rfl⟩ | ⟨a, h0, rfl, rfl, hs⟩ | ⟨b, h0, h1, rfl, rfl | rfl⟩)
    · have ha : R.In R.min := ht
      rw [hs, if_pos rfl] at e
      have := ((right_iff (crMod_values ha ha (by omega))).1 h R.min R.min ⟨ha, rfl⟩ ⟨ha, rfl⟩ (by omega))
      rw [if_pos ⟨hs, rfl, rfl⟩] at this
      have := this.2
      rw [Int.tmod_self] at this
      omega
    · have ha : R.In R.min := ht
      rw [hs, if_pos rfl] at e
      have := ((right_iff (mod_marker_value ha).2).1 h R.min (R.max + 1) ⟨ha, rfl⟩ (show R.max < R.max + 1 by omega)
        (by omega)).2
      rw [show R.min = -(R.max + 1) by omega, Int.neg_tmod, Int.tmod_self] at this
      omega
    · have ha : R.In a := ht
      rw [hs, if_neg (by decide)] at e
      have := ((right_iff (mod_marker_value ha).1).1 h a (-1) ⟨ha, rfl⟩ (show -1 < R.min by omega) (by decide)).2
      rw [Int.tmod_neg, Int.tmod_one] at this
      omega
    · have hb : R.In b := hu
      have hb1 := hb.1
      -- a multiple of `b` below the range has remainder 0
      have key := (right_iff (mod_value_marker hb h0).1).1 h (b * (b * (R.min - 1))) b
        (show _ < R.min by
          have : 1 ≤ b * b := by rcases Int.lt_or_gt_of_ne h0 with k | k <;> nlinarith
          nlinarith) ⟨hb, rfl⟩ h0
      rw [Int.mul_tmod_right] at key
      have := describes_exactOr key R.in_zero
      omega
    · have hb : R.In b := hu
      have key := (right_iff (mod_value_marker hb h0).2).1 h (b * (b * (R.max + 1))) b
        (show R.max < _ by
          have : 1 ≤ b * b := by rcases Int.lt_or_gt_of_ne h0 with k | k <;> nlinarith
          nlinarith) ⟨hb, rfl⟩ h0
      rw [Int.mul_tmod_right] at key
      have := describes_exactOr key R.in_zero
      omega
  · intro h
    rcases t.cases4 with ⟨a, rfl⟩ | rfl | rfl | hv
    · have ha : R.In a := ht
      intro x y hx hy h0
      obtain ⟨_, rfl⟩ := hx
      by_cases hc : R.signed = false ∧ u = below
      · obtain ⟨hs, rfl⟩ := hc
        have : x = 0 := by by_contra hc; exact h (Or.inr (Or.inl ⟨x, hc, rfl, rfl, hs⟩))
        subst this
        exact ⟨_, (mod_marker_value ha).1, ha, Int.zero_tmod y⟩
      · refine C63_mod_partial R x u y ha hy h0 ?_ ?_ ?_
        · rintro rfl; rcases hs : R.signed with _ | _
          · exact absurd ⟨hs, rfl⟩ hc
          · rfl
        · rintro ⟨rfl, _, rfl, hs⟩; exact h (Or.inl ⟨hs, rfl, Or.inr rfl⟩)
        · rintro ⟨hs, rfl, rfl⟩; exact h (Or.inl ⟨hs, rfl, Or.inl rfl⟩)
    · rcases u.cases4 with ⟨b, rfl⟩ | rfl | rfl | hv
      · have hb : R.In b := hu
        intro x y hx hy h0
        obtain ⟨_, rfl⟩ := hy
        refine ⟨_, (mod_value_marker hb h0).1, ?_⟩
        have : y = 1 := by
          by_contra hc
          exact h (Or.inr (Or.inr ⟨y, h0, hc, rfl, Or.inl rfl⟩))
        subst this
        rw [Int.tmod_one]; exact exactOr_describes 0
      · exact right_vague rfl
      · exact right_vague rfl
      · exact right_vague (crMod_vague (Or.inr hv))
    · rcases u.cases4 with ⟨b, rfl⟩ | rfl | rfl | hv
      · have hb : R.In b := hu
        intro x y hx hy h0
        obtain ⟨_, rfl⟩ := hy
        refine ⟨_, (mod_value_marker hb h0).2, ?_⟩
        have : y = 1 := by
          by_contra hc
          exact h (Or.inr (Or.inr ⟨y, h0, hc, rfl, Or.inr rfl⟩))
        subst this
        rw [Int.tmod_one]; exact exactOr_describes 0
      · exact right_vague rfl
      · exact right_vague rfl
      · exact right_vague (crMod_vague (Or.inr hv))
    · exact right_vague (crMod_vague (Or.inl hv))

example : Right2 i8 (@crMod lp64 i8) (· ≠ 0) Int.tmod above (.ok 1) := by
  rw [@C75_mod lp64 _ _ _ (by decide) (by decide)]; simp
example : ¬ Right2 u8 (@crMod lp64 u8) (· ≠ 0) Int.tmod above (.ok 2) := by
  rw [@C75_mod lp64 _ _ _ (by decide) (by decide)]; simp

/-! ### shifts of two values -/

/-- C75, left shift of two values: wrong exactly when a negative value shifted by a positive count gives the minimum. -/
theorem C75_shl (R : ITy) (hR : R.Ok) (t u : Int) (ht : R.In t) (hu : R.In u) :
    Right2 R (crShl R) (fun _ => True) scale (.ok t) (.ok u) ↔ ¬ (t < 0 ∧ 0 < u ∧ scale t u = R.min) := by
  have hv : crShl R (.ok t) (.ok u) = _ := crShl_ok hR ht hu 0
  rw [right_iff hv]
  have hz := R.min_nonpos; have hm := R.max_ge
  obtain ⟨c, _, h2, h3⟩ := C46_shl R hR t u ht hu
  rw [hv] at h2
  cases h2
  constructor
  · rintro h ⟨h0, h1, hs⟩
    have := h t u ⟨ht, rfl⟩ ⟨hu, rfl⟩ trivial
    rw [if_neg (by omega), if_pos ⟨h0, h1, by omega⟩] at this
    have this : scale t u < R.min := this
    omega
  · rintro h x y ⟨_, rfl⟩ ⟨_, rfl⟩ _
    split_ifs at h3 ⊢ with k1 k2
    · exact k1
    · have := k2.2.2
      show scale x y < R.min
      by_contra hc
      exact h ⟨k2.1, k2.2.1, by omega⟩
    · rcases h3 with ⟨_, h3⟩ | ⟨h3, _⟩ | ⟨h3, _⟩
      · exact ⟨h3, rfl⟩
      · simp at h3
      · simp at h3

example : ¬ Right2 i8 (@crShl lp64 i8) (fun _ => True) scale (.ok (-1)) (.ok 7) := by
  rw [@C75_shl lp64 _ (by decide) _ _ (by decide) (by decide)]; decide
example : Right2 i8 (@crShl lp64 i8) (fun _ => True) scale (.ok (-1)) (.ok 8) := by
  rw [@C75_shl lp64 _ (by decide) _ _ (by decide) (by decide)]; decide

/-- C75, right shift of two values: wrong exactly when a negative value shifted by a negative count gives the minimum,
and undefined exactly when a positive value of an unsigned type at least as wide as `int` is shifted by the width. -/
theorem C75_shr (R : ITy) (hR : R.Ok) (t u : Int) (ht : R.In t) (hu : R.In u) :
    (Right2 R (crShr R) (fun _ => True) (fun x y => scale x (-y)) (.ok t) (.ok u) ↔
      ¬ (t < 0 ∧ u < 0 ∧ scale t (-u) = R.min) ∧ ¬ (R.signed = false ∧ Arch.intLg ≤ R.lg ∧ u = R.bits ∧ 0 < t)) ∧
    (crShr R (.ok t) (.ok u) = .fault .ub ↔ R.signed = false ∧ Arch.intLg ≤ R.lg ∧ u = R.bits ∧ 0 < t) := by
  have hz := R.min_nonpos; have hm := R.max_ge
  by_cases hub : R.signed = false ∧ Arch.intLg ≤ R.lg ∧ u = R.bits ∧ 0 < t
  · have hf : crShr R (.ok t) (.ok u) = .fault .ub := by
      obtain ⟨hs, hl, rfl, h0⟩ := hub
      have hb := R.bits_pos
      show crShift 3 false R (.ok t) (.ok R.bits) = _
      unfold crShift
      rw [prodFlag_gt ht h0, prodFlag_gt hu (by omega)]
      simp only [shrTable, PFlag.row, crGt, crLt_toBool R.in_zero ht, crLt_toBool R.in_zero hu, h0,
        decide_true, assertThat, Out.ret_bind, Bool.false_eq_true, if_false, if_true, CR.value,
        C09_rightShift_refuted R hR hs hl t ht, show (0 : Int) < R.bits by omega]
      rfl
    refine ⟨⟨fun h => ?_, fun h => absurd hub h.2⟩, ⟨fun _ => hub, fun _ => hf⟩⟩
    obtain ⟨c, h, _⟩ := h t u ⟨ht, rfl⟩ ⟨hu, rfl⟩ trivial
    rw [hf] at h
    cases h
  obtain ⟨c, _, h2, h3⟩ := C46_shr_partial R hR t u ht hu hub
  have hv : crShr R (.ok t) (.ok u) = _ := crShr_ok hR ht hu hub 0
  refine ⟨?_, ⟨fun h => (by rw [hv] at h; simp at h), fun h => absurd h hub⟩⟩
  rw [right_iff hv]
  rw [hv] at h2
  cases h2
  constructor
  · refine fun h => ⟨?_, hub⟩
    rintro ⟨h0, h1, hs⟩
    have := h t u ⟨ht, rfl⟩ ⟨hu, rfl⟩ trivial
    rw [if_neg (by omega), if_pos ⟨h0, h1, by omega⟩] at this
    have this : scale t (-u) < R.min := this
    omega
  · rintro ⟨h, _⟩ x y ⟨_, rfl⟩ ⟨_, rfl⟩ _
    split_ifs at h3 ⊢ with k1 k2
    · exact k1
    · have := k2.2.2
      show scale x (-y) < R.min
      by_contra hc
      exact h ⟨k2.1, k2.2.1, by omega⟩
    · rcases h3 with ⟨_, h3⟩ | ⟨h3, _⟩ | ⟨h3, _⟩
      · exact ⟨h3, rfl⟩
      · simp at h3
      · simp at h3

example : @crShr lp64 u32 (.ok 7) (.ok 32) = .fault .ub :=
  (@C75_shr lp64 u32 (by decide) 7 32 (by decide) (by decide)).2.2 (by decide)

/-! ### the checked functions on built-in integers -/

/-- C75, `checked::modulus`: wrong exactly for minimum % minimum of a signed type. -/
theorem C75_modulus (R : ITy) (t u : Int) (ht : R.In t) (hu : R.In u) :
    modulus R make t u = .ret (if u = 0 then .err .domain_error else .ok (t.tmod u)) ↔
      ¬ (R.signed = true ∧ t = R.min ∧ u = R.min) := by
  refine ⟨?_, C07_modulus_partial R t u ht hu⟩
  rintro h ⟨hs, rfl, rfl⟩
  obtain ⟨k1, k2, k3⟩ := C07_modulus_refuted R hs
  rw [k1, k2, if_neg k3] at h
  simp at h
  exact k3 h

/-- C75, `checked::right_shift`: undefined exactly when an unsigned type at least as wide as `int` is shifted by its
width; in all other cases it returns. -/
theorem C75_rightShift (R : ITy) (hR : R.Ok) (t u : Int) (ht : R.In t) (hu : R.In u) :
    (rightShift R make t u = .fault .ub ↔ R.signed = false ∧ Arch.intLg ≤ R.lg ∧ u = R.bits) ∧
    ((∃ r, rightShift R make t u = .ret r) ↔ ¬ (R.signed = false ∧ Arch.intLg ≤ R.lg ∧ u = R.bits)) := by
  by_cases hc : R.signed = false ∧ Arch.intLg ≤ R.lg ∧ u = R.bits
  · obtain ⟨hs, hl, rfl⟩ := hc
    rw [C09_rightShift_refuted R hR hs hl t ht]
    simp [hs, hl]
  · obtain ⟨r, h, _⟩ := C09_rightShift_partial R hR t u ht hu hc
    rw [h]
    exact ⟨⟨fun h => by simp at h, fun h => absurd h hc⟩, ⟨fun _ => hc, fun _ => ⟨r, rfl⟩⟩⟩

/-- C75, the bounded cast: for a value outside the bounds, the side reported is wrong exactly when the value is below
the bounds and its type is unsigned. -/
theorem C75_cast (R T : ITy) (mn mx t : Int) (hmn : R.In mn) (hmx : R.In mx) (hle : mn ≤ mx) (ht : T.In t) :
    ∃ r, cast R mn mx T make t = .ret r ∧
      (t < mn → ((r = .err .negative_overflow_error ∨ r = .err .domain_error) ↔ T.signed = true)) ∧
      (mx < t → r = .err .positive_overflow_error) ∧ (mn ≤ t → t ≤ mx → r = .ok t) := by
  obtain ⟨r, h1, h2, h3, h4⟩ := C01_cast_partial R T mn mx t hmn hmx hle ht
  refine ⟨r, h1, fun h => ⟨fun k => ?_, fun k => (h4 k).1 h⟩, h3, fun k1 k2 => (h2 t).2 ⟨rfl, k1, k2⟩⟩
  rcases hs : T.signed with _ | _
  · rw [cast_eq ht hmn hmx, hs, if_neg (by simp), if_neg (by omega), if_pos h] at h1
    cases h1
    simp at k
  · rfl

example : @cast lp64 u8 10 20 u8 make 5 = .ret (.err .positive_overflow_error) ∧
    @cast lp64 u8 10 20 i8 make 5 = .ret (.err .domain_error) := by decide

/-- C75, `round_out`: undefined exactly for signed types at least as wide as `int` and values in the upper half of the
positive or the lower half of the negative range. -/
theorem C75_roundOut (T : ITy) (hT : T.Ok) (t : Int) (ht : T.In t) :
    (roundOut T t = .fault .ub ↔
      T.signed = true ∧ Arch.intLg ≤ T.lg ∧ (2 ^ T.digits ≤ 2 * t ∨ 2 * t < - 2 ^ T.digits)) ∧
    ((∃ r, roundOut T t = .ret r) ↔
      ¬ (T.signed = true ∧ Arch.intLg ≤ T.lg ∧ (2 ^ T.digits ≤ 2 * t ∨ 2 * t < - 2 ^ T.digits))) := by
  by_cases hc : T.signed = true ∧ Arch.intLg ≤ T.lg ∧ (2 ^ T.digits ≤ 2 * t ∨ 2 * t < - 2 ^ T.digits)
  · have h : roundOut T t = .fault .ub := by
      obtain ⟨hs, hl, h⟩ := hc
      exact roundOut_ub hT ht hs hl h
    rw [h]
    exact ⟨⟨fun _ => hc, fun _ => rfl⟩, ⟨fun ⟨_, h⟩ => by simp at h, fun h => absurd hc h⟩⟩
  · have : ∃ r, roundOut T t = .ret r := by
      have hu : T.signed = false → 0 ≤ t := fun h => ht.nonneg h
      rcases Int.lt_or_le t 0 with h0 | h0
      · obtain ⟨n, _, h, _⟩ := C14_roundOut_neg_partial T hT t ht h0 (by
          rcases hs : T.signed with _ | _
          · have := hu hs; omega
          · by_contra hcc
            exact hc ⟨hs, by omega, by omega⟩)
        exact ⟨_, h⟩
      · obtain ⟨n, _, h, _⟩ := C14_roundOut_nonneg_partial T hT t ht h0 (by
          by_contra hcc
          rcases hs : T.signed with _ | _
          · exact hcc (Or.inl hs)
          · exact hc ⟨hs, by by_contra k; exact hcc (Or.inr (Or.inl (by omega))),
              by by_contra k; exact hcc (Or.inr (Or.inr (by omega)))⟩)
        exact ⟨_, h⟩
    obtain ⟨r, h⟩ := this
    rw [h]
    exact ⟨⟨fun h => by simp at h, fun h => absurd h hc⟩, ⟨fun _ => hc, fun _ => ⟨r, rfl⟩⟩⟩

example : @roundOut lp64 i32 (2^30) = .fault .ub ∧ @roundOut lp64 i32 (2^30 - 1) = .ret (2^30 - 1) := by decide +kernel

end
end Verif.Props
