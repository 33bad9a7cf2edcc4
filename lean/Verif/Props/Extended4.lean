import Verif.ExactSpec
import Verif.Props.Extended3
import Verif.Proofs.Exact

/-!
Property C81: for exactly which operands, markers included, the shifts of `checked_result` are right.
-/

namespace Verif.Props
open Spec
section
variable [Arch]

omit [Arch] in
private theorem half {n k : Int} (hn : 0 ≤ n) (hk : 2 ≤ k) : 2 * n.tdiv k ≤ n := by
  rw [Int.tdiv_eq_ediv_of_nonneg hn]
  have h1 := Int.mul_ediv_self_le (x := n) (k := k) (by omega)
  have h2 : 0 ≤ n / k := Int.ediv_nonneg hn (by omega)
  have h3 : 2 * (n / k) ≤ k * (n / k) := Int.mul_le_mul_of_nonneg_right hk h2
  omega

omit [Arch] in
private theorem pow_two_le {y : Int} (hy : y < 0) : (2 : Int) ≤ 2 ^ (-y).toNat := by
  obtain ⟨k, e⟩ : ∃ k, (-y).toNat = k + 1 := ⟨(-y).toNat - 1, by omega⟩
  have := one_le_two_pow k
  rw [e, Int.pow_succ]; omega

omit [Arch] in
/-- moving towards zero at least halves -/
private theorem scale_down {x y : Int} (hy : y < 0) : (0 ≤ x → 2 * scale x y ≤ x) ∧ (x ≤ 0 → x ≤ 2 * scale x y ∧ scale x y ≤ 0) := by
  unfold scale
  rw [if_neg (by omega)]
  refine ⟨fun h => half h (pow_two_le hy), fun h => ?_⟩
  have h1 := half (n := -x) (by omega) (pow_two_le hy)
  have h2 : 0 ≤ (-x).tdiv (2 ^ (-y).toNat) := Int.tdiv_nonneg (by omega) (by have := pow_two_le hy; omega)
  rw [Int.neg_tdiv] at h1 h2
  omega

omit [Arch] in
private theorem scale_one (x : Int) : scale x 1 = x * 2 := rfl

private theorem flag3 {R : ITy} {a : Int} (ha : R.In a) : (a < 0 ∧ prodFlag R (.ok a) = .less_than_zero) ∨
    (a = 0 ∧ prodFlag R (.ok a) = .zero) ∨ (0 < a ∧ prodFlag R (.ok a) = .greater_than_zero) := by
  rcases Int.lt_trichotomy a 0 with h | h | h
  · exact Or.inl ⟨h, prodFlag_lt ha h⟩
  · subst h; exact Or.inr (Or.inl ⟨rfl, prodFlag_zero⟩)
  · exact Or.inr (Or.inr ⟨h, prodFlag_gt ha h⟩)

private theorem marker_shift {R : ITy} {b : Int} (hb : R.In b) (left : Bool) :
    crShift 3 left R above (.ok b) = .ret above ∧ crShift 3 left R below (.ok b) = .ret below := by
  unfold crShift
  rcases flag3 hb with ⟨_, hf⟩ | ⟨_, hf⟩ | ⟨_, hf⟩ <;> rw [hf] <;> cases left <;> exact ⟨rfl, rfl⟩

private theorem shl_below {R : ITy} {a : Int} (ha : R.In a) : crShl R (.ok a) below = .ret (.ok 0) := by
  unfold crShl crShift
  rcases flag3 ha with ⟨_, hf⟩ | ⟨_, hf⟩ | ⟨_, hf⟩ <;> rw [hf] <;> rfl

private theorem shr_below {R : ITy} {a : Int} (ha : R.In a) (h : 0 < a) : crShr R (.ok a) below = .ret above := by
  unfold crShr crShift
  rw [prodFlag_gt ha h]; rfl

/-- `<<` is right for all operands except: something above the range shifted towards zero, something below the range of a signed type
shifted towards zero, and a value of an unsigned type, at least two, shifted by a count known only to be below zero. -/
theorem C81_shl_iff (R : ITy) (hR : R.Ok) (t u : CR) (ht : Proper R t) (hu : Proper R u) :
    Right2Near R (crShl R) scale t u ↔
      ¬ ((∃ b, b < 0 ∧ t = above ∧ u = .ok b) ∨ (∃ b, b < 0 ∧ t = below ∧ u = .ok b ∧ R.signed = true) ∨
         (∃ a, 2 ≤ a ∧ t = .ok a ∧ u = below ∧ R.signed = false)) := by
  have hz := R.min_nonpos; have hm := R.max_ge
  have e0 := ITy.min_eq R
  constructor
  · rintro h (⟨b, h0, rfl, rfl⟩ | ⟨b, h0, rfl, rfl, hs⟩ | ⟨a, h0, rfl, rfl, hs⟩)
    · obtain ⟨c, e, d⟩ := h (R.max + 1) b (show R.max < R.max + 1 by omega) ⟨hu, rfl⟩
      have e := (marker_shift hu true).1.symm.trans e
      cases e
      have d : R.max ≤ scale (R.max + 1) b := d
      have := (scale_down (x := R.max + 1) h0).1 (by omega)
      omega
    · obtain ⟨c, e, d⟩ := h (R.min - 1) b (show R.min - 1 < R.min by omega) ⟨hu, rfl⟩
      have e := (marker_shift hu true).2.symm.trans e
      cases e
      have d : scale (R.min - 1) b ≤ R.min := d
      have := (scale_down (x := R.min - 1) h0).2 (by omega)
      rw [hs, if_pos rfl] at e0
      omega
    · have e1 := ITy.min_unsigned hs
      obtain ⟨c, e, d⟩ := h a (-1) ⟨ht, rfl⟩ (show -1 < R.min by omega)
      have e := (shl_below ht).symm.trans e
      cases e
      have d : scale a (-1) = 0 := d.2
      have d : a.tdiv 2 = 0 := d
      rw [Int.tdiv_eq_ediv_of_nonneg (by omega)] at d
      omega
  · intro h x y dx dy
    by_cases c1 : t = below ∧ u = .ok y ∧ y < 0
    · obtain ⟨rfl, rfl, hy⟩ := c1
      refine ⟨_, (marker_shift dy.1 true).2, ?_⟩
      have dx : x < R.min := dx
      have := (scale_down (x := x) hy).2 (by omega)
      show scale x y ≤ R.min
      rcases hs : R.signed with _ | _
      · rw [ITy.min_unsigned hs]; omega
      · exact absurd (Or.inr (Or.inl ⟨y, hy, rfl, rfl, hs⟩)) h
    by_cases c2 : t = .ok 1 ∧ u = below ∧ R.signed = false
    · obtain ⟨rfl, rfl, hs⟩ := c2
      refine ⟨_, shl_below dx.1, R.in_zero, ?_⟩
      have dy : y < R.min := dy
      rw [dx.2]
      have e2 := (scale_down (x := 1) (y := y) (by omega)).1 (by omega)
      have e3 : 0 ≤ scale 1 y := by
        unfold scale; rw [if_neg (by omega)]
        exact Int.tdiv_nonneg (by omega) (by have := pow_two_le (y := y) (by omega); omega)
      omega
    refine C81_shl_partial R hR t u x y dx dy (fun hm hy => ?_) (fun a ha h0 hb => ?_)
    · by_contra hn
      rcases hm with rfl | rfl
      · exact h (Or.inl ⟨y, by omega, rfl, hy⟩)
      · exact c1 ⟨rfl, hy, by omega⟩
    · rcases hs : R.signed with _ | _
      · by_cases h1 : a = 1
        · subst h1; exact absurd ⟨ha, hb, hs⟩ c2
        · exact absurd (Or.inr (Or.inr ⟨a, by omega, ha, hb, hs⟩)) h
      · rfl

/-- `>>` is right for all operands except: something above the range shifted towards zero, something below the range of a signed type
shifted towards zero, a positive value of an unsigned type whose double is below the maximum, shifted by a count known only to be below
zero; and the undefined case of C46. -/
theorem C81_shr_iff (R : ITy) (hR : R.Ok) (t u : CR) (ht : Proper R t) (hu : Proper R u) :
    Right2Near R (crShr R) (fun x y => scale x (-y)) t u ↔
      ¬ ((∃ b, 0 < b ∧ t = above ∧ u = .ok b) ∨ (∃ b, 0 < b ∧ t = below ∧ u = .ok b ∧ R.signed = true) ∨
         (∃ a, 0 < a ∧ 2 * a < R.max ∧ t = .ok a ∧ u = below ∧ R.signed = false) ∨
         (∃ a, 0 < a ∧ t = .ok a ∧ u = .ok (R.bits : Int) ∧ R.signed = false ∧ Arch.intLg ≤ R.lg)) := by
  have hz := R.min_nonpos; have hm := R.max_ge
  have e0 := ITy.min_eq R
  constructor
  · rintro h (⟨b, h0, rfl, rfl⟩ | ⟨b, h0, rfl, rfl, hs⟩ | ⟨a, h0, h1, rfl, rfl, hs⟩ | ⟨a, h0, rfl, rfl, hs, hl⟩)
    · obtain ⟨c, e, d⟩ := h (R.max + 1) b (show R.max < R.max + 1 by omega) ⟨hu, rfl⟩
      have e := (marker_shift hu false).1.symm.trans e
      cases e
      have d : R.max ≤ scale (R.max + 1) (-b) := d
      have := (scale_down (x := R.max + 1) (y := -b) (by omega)).1 (by omega)
      omega
    · obtain ⟨c, e, d⟩ := h (R.min - 1) b (show R.min - 1 < R.min by omega) ⟨hu, rfl⟩
      have e := (marker_shift hu false).2.symm.trans e
      cases e
      have d : scale (R.min - 1) (-b) ≤ R.min := d
      have := (scale_down (x := R.min - 1) (y := -b) (by omega)).2 (by omega)
      rw [hs, if_pos rfl] at e0
      omega
    · have e1 := ITy.min_unsigned hs
      obtain ⟨c, e, d⟩ := h a (-1) ⟨ht, rfl⟩ (show -1 < R.min by omega)
      have e := (shr_below ht h0).symm.trans e
      cases e
      have d : R.max ≤ scale a 1 := d
      rw [scale_one] at d
      omega
    · have ia : R.In a := ht
      have ib : R.In (R.bits : Int) := hu
      obtain ⟨c, e, d⟩ := h a R.bits ⟨ht, rfl⟩ ⟨hu, rfl⟩
      have k := crShr_fullWidth hR ia (b := (R.bits : Int)) ⟨hs, hl, rfl, h0⟩
      rw [castTo_of_in ia, castTo_of_in ib, e] at k
      cases k
  · intro h x y dx dy
    by_cases c1 : t = below ∧ u = .ok y ∧ 0 < y
    · obtain ⟨rfl, rfl, hy⟩ := c1
      refine ⟨_, (marker_shift dy.1 false).2, ?_⟩
      have dx : x < R.min := dx
      have := (scale_down (x := x) (y := -y) (by omega)).2 (by omega)
      show scale x (-y) ≤ R.min
      rcases hs : R.signed with _ | _
      · rw [ITy.min_unsigned hs]; omega
      · exact absurd (Or.inr (Or.inl ⟨y, hy, rfl, rfl, hs⟩)) h
    by_cases c2 : ∃ a, t = .ok a ∧ 0 < a ∧ u = below ∧ R.signed = false
    · obtain ⟨a, rfl, h0, rfl, hs⟩ := c2
      refine ⟨_, shr_below dx.1 h0, ?_⟩
      have dy : y < R.min := dy
      obtain ⟨_, rfl⟩ := dx
      have h2 : R.max ≤ 2 * x := by
        by_contra h3
        exact h (Or.inr (Or.inr (Or.inl ⟨x, h0, by omega, rfl, rfl, hs⟩)))
      show R.max ≤ scale x (-y)
      unfold scale
      rw [if_pos (by omega)]
      have h3 := pow_two_le (y := y) (by omega)
      have : x * 2 ≤ x * 2 ^ (-y).toNat := Int.mul_le_mul_of_nonneg_left h3 (by omega)
      omega
    refine C81_shr_partial R hR t u x y dx dy (fun hm hy => ?_) (fun a ha h0 hb => ?_) (fun a ha hb hn => ?_)
    · by_contra hn
      rcases hm with rfl | rfl
      · exact h (Or.inl ⟨y, by omega, rfl, hy⟩)
      · exact c1 ⟨rfl, hy, by omega⟩
    · rcases hs : R.signed with _ | _
      · exact absurd ⟨a, ha, h0, hb, hs⟩ c2
      · rfl
    · obtain ⟨hs, hl, rfl, h0⟩ := hn
      exact h (Or.inr (Or.inr (Or.inr ⟨a, h0, ha, hb, hs, hl⟩)))

end

/- both sides occur -/
example : @Right2Near i8 (@crShl lp64 i8) scale above (.ok 3) := by
  let _ := lp64
  refine (C81_shl_iff i8 (by decide) _ _ (by decide) (by decide)).2 ?_
  rintro (⟨b, h, -, e⟩ | ⟨b, h, e, -⟩ | ⟨a, h, e, -⟩)
  · cases e; omega
  · cases e
  · cases e
example : ¬ @Right2Near u8 (@crShl lp64 u8) scale (.ok 2) below := by
  let _ := lp64
  rw [C81_shl_iff u8 (by decide) _ _ (by decide) (by decide)]
  exact fun h => h (Or.inr (Or.inr ⟨2, by omega, rfl, rfl, rfl⟩))
example : @Right2Near u8 (@crShl lp64 u8) scale (.ok 1) below := by
  let _ := lp64
  refine (C81_shl_iff u8 (by decide) _ _ (by decide) (by decide)).2 ?_
  rintro (⟨b, h, e, -⟩ | ⟨b, h, e, -⟩ | ⟨a, h, e, -⟩)
  · cases e
  · cases e
  · cases e; omega
example : ¬ @Right2Near i8 (@crShr lp64 i8) (fun x y => scale x (-y)) below (.ok 1) := by
  let _ := lp64
  rw [C81_shr_iff i8 (by decide) _ _ (by decide) (by decide)]
  exact fun h => h (Or.inr (Or.inl ⟨1, by omega, rfl, rfl, rfl⟩))

end Verif.Props
