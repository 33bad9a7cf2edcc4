import Verif.Proofs.Promotion

/-! Lemmas about the shift operators of safe types. -/

namespace Verif
open Spec
section
variable [Arch]

omit [Arch] in
/-- the four outcomes of a conversion -/
theorem castTo_cases (R : ITy) (x : Int) :
    (castTo R x = .ok x ∧ R.In x) ∨ (castTo R x = .err .positive_overflow_error ∧ R.max < x) ∨
    (castTo R x = .err .negative_overflow_error ∧ x < R.min ∧ R.signed = true) ∨
    (castTo R x = .err .domain_error ∧ R.signed = false ∧ x < 0) := by
  unfold castTo exactOr
  have := R.min_nonpos; have := R.max_ge
  split_ifs with h1 h2 h3
  · exact Or.inr (Or.inr (Or.inr ⟨rfl, h1⟩))
  · exact Or.inr (Or.inl ⟨rfl, h2⟩)
  · refine Or.inr (Or.inr (Or.inl ⟨rfl, h3, ?_⟩))
    by_contra h; exact h1 ⟨by simpa using h, by omega⟩
  · exact Or.inl ⟨rfl, by omega, by omega⟩

omit [Arch] in
theorem vague_domain : Vague (.err .domain_error) := ⟨_, rfl, by decide, by decide⟩
omit [Arch] in
theorem vague_range : Vague (.err .range_error) := ⟨_, rfl, by decide, by decide⟩

omit [Arch] in
theorem scale_nonneg {a b : Int} (h : 0 ≤ b) : scale a b = a * 2 ^ b.toNat := by unfold scale; rw [if_pos h]
omit [Arch] in
theorem scale_neg {a b : Int} (h : b < 0) : scale a b = a.tdiv (2 ^ (-b).toNat) := by
  unfold scale; rw [if_neg (by omega)]
omit [Arch] in
theorem scale_zero_left {b : Int} : scale 0 b = 0 := by unfold scale; split_ifs <;> simp

theorem prodFlag_dom (R : ITy) : prodFlag R (.err .domain_error) = .indeterminate := rfl

omit [Arch] in
theorem mul_pow_big {R : ITy} {a b : Int} (ha : 0 < a) (hb : R.max < b) : R.max < a * 2 ^ b.toNat := by
  have := R.max_ge
  have h := lt_two_pow_toNat (k := b) (by omega)
  nlinarith

omit [Arch] in
theorem mul_pow_ge {a b : Int} (ha : 0 ≤ a) : a ≤ a * 2 ^ b.toNat := by
  have := two_pow_pos b.toNat; nlinarith

omit [Arch] in
theorem mul_pow_le {a b : Int} (ha : a ≤ 0) : a * 2 ^ b.toNat ≤ a := by
  have := two_pow_pos b.toNat; nlinarith

/-- `<<` on converted operands -/
theorem crShl_val {R : ITy} (hR : R.Ok) (a b : Int) :
    ∃ r, crShl R (castTo R a) (castTo R b) = .ret r ∧ Proper R r ∧
      ((r = .ok (scale a b) ∧ R.In a) ∨
       (r = .err .positive_overflow_error ∧ 0 < a ∧ (0 ≤ b → R.max < a * 2 ^ b.toNat) ∧ (R.In a → 0 ≤ b)) ∨
       (r = .err .negative_overflow_error ∧ a < 0 ∧ (0 ≤ b → a * 2 ^ b.toNat ≤ R.min) ∧ (R.In a → 0 < b)) ∨
       (Vague r ∧ a ≠ 0 ∧ (R.signed = false ∧ (a < 0 ∨ b < 0) ∨ b < 0 ∧ ¬ R.In a))) := by
  have hz := R.min_nonpos; have hm := R.max_ge
  rcases castTo_cases R a with ⟨ea, ia⟩ | ⟨ea, ia⟩ | ⟨ea, ia, sa⟩ | ⟨ea, sa, ia⟩ <;> rw [ea]
  · rcases castTo_cases R b with ⟨eb, ib⟩ | ⟨eb, ib⟩ | ⟨eb, ib, sb⟩ | ⟨eb, sb, ib⟩ <;> rw [eb]
    · refine ⟨_, crShl_ok hR ia ib 0, ?_⟩
      have key : ∀ x, scale a b = x → R.min ≤ x → x ≤ R.max → Proper R (.ok (scale a b)) := fun x e h1 h2 => by
        show R.In _; rw [e]; exact ⟨h1, h2⟩
      split_ifs with h1 h2
      · refine ⟨proper_pos R, Or.inr (Or.inl ⟨rfl, ?_, ?_, ?_⟩)⟩
        · by_contra h
          have i1 := ia.1; have i2 := ia.2
          rcases Int.lt_or_le b 0 with hb | hb
          · rw [scale_neg hb] at h1
            have := tdiv_neg_pos_bounds (a := a) (b := 2 ^ (-b).toNat) (by omega) (two_pow_pos _); omega
          · rw [scale_nonneg hb] at h1
            have := mul_pow_le (a := a) (b := b) (by omega); omega
        · intro hb; rwa [scale_nonneg hb] at h1
        · intro _; by_contra hb
          have i1 := ia.1; have i2 := ia.2
          rw [scale_neg (by omega)] at h1
          rcases Int.lt_or_le a 0 with h3 | h3
          · have := tdiv_neg_pos_bounds (a := a) (b := 2 ^ (-b).toNat) (by omega) (two_pow_pos _); omega
          · have := tdiv_nonneg_bounds (a := a) (b := 2 ^ (-b).toNat) (by omega) (two_pow_pos _); omega
      · refine ⟨proper_neg R, Or.inr (Or.inr (Or.inl ⟨rfl, h2.1, ?_, fun _ => h2.2.1⟩))⟩
        intro hb; have := h2.2.2; rwa [scale_nonneg hb] at this
      · refine ⟨?_, Or.inl ⟨rfl, ia⟩⟩
        refine key _ rfl ?_ (by omega)
        have i1 := ia.1; have i2 := ia.2
        rcases Int.lt_trichotomy b 0 with hb | hb | hb
        · rw [scale_neg hb]
          rcases Int.lt_or_le a 0 with h3 | h3
          · have := tdiv_neg_pos_bounds (a := a) (b := 2 ^ (-b).toNat) (by omega) (two_pow_pos _); omega
          · have := tdiv_nonneg_bounds (a := a) (b := 2 ^ (-b).toNat) (by omega) (two_pow_pos _); omega
        · subst hb; rw [scale_nonneg (by omega)]; simpa using i1
        · rcases Int.lt_or_le a 0 with h3 | h3
          · omega
          · rw [scale_nonneg (by omega)]; have := mul_pow_ge (b := b) h3; omega
    · unfold crShl crShift
      rcases Int.lt_trichotomy a 0 with h | h | h
      · rw [prodFlag_lt ia h, prodFlag_pos]
        obtain ⟨hs, e⟩ := neg_signed ia h
        refine ⟨_, rfl, proper_neg R, Or.inr (Or.inr (Or.inl ⟨rfl, h, fun _ => ?_, fun _ => by omega⟩))⟩
        have := mul_pow_big (R := R) (a := -a) (b := b) (by omega) ib
        have : -a * 2 ^ b.toNat = -(a * 2 ^ b.toNat) := Int.neg_mul ..
        omega
      · subst h; rw [prodFlag_zero, prodFlag_pos]
        exact ⟨_, rfl, ia, Or.inl ⟨by rw [scale_zero_left], ia⟩⟩
      · rw [prodFlag_gt ia h, prodFlag_pos]
        exact ⟨_, rfl, proper_pos R, Or.inr (Or.inl ⟨rfl, h, fun _ => mul_pow_big h ib, fun _ => by omega⟩)⟩
    · have e : R.min = -R.max - 1 := by have := ITy.min_eq R; simpa [sb] using this
      have hsc : scale a b = 0 := by
        have i1 := ia.1; have i2 := ia.2
        rw [scale_neg (by omega)]
        exact tdiv_big (m := R.max) (by omega) (by omega) (by omega) (by omega)
      unfold crShl crShift
      rw [hsc]
      rcases Int.lt_trichotomy a 0 with h | h | h
      · rw [prodFlag_lt ia h, prodFlag_neg]
        exact ⟨_, rfl, R.in_zero, Or.inl ⟨rfl, ia⟩⟩
      · subst h; rw [prodFlag_zero, prodFlag_neg]
        exact ⟨_, rfl, ia, Or.inl ⟨rfl, ia⟩⟩
      · rw [prodFlag_gt ia h, prodFlag_neg]
        exact ⟨_, rfl, R.in_zero, Or.inl ⟨rfl, ia⟩⟩
    · unfold crShl crShift
      rcases Int.lt_trichotomy a 0 with h | h | h
      · have := ia.nonneg sb; omega
      · subst h; rw [prodFlag_zero, prodFlag_dom]
        exact ⟨_, rfl, ia, Or.inl ⟨by rw [scale_zero_left], ia⟩⟩
      · rw [prodFlag_gt ia h, prodFlag_dom]
        exact ⟨_, rfl, proper_range R, Or.inr (Or.inr (Or.inr ⟨vague_range, by omega, Or.inl ⟨sb, Or.inr ib⟩⟩))⟩
  · have na : ¬ R.In a := fun h => by have := h.2; omega
    unfold crShl crShift
    rcases castTo_cases R b with ⟨eb, ib⟩ | ⟨eb, ib⟩ | ⟨eb, ib, sb⟩ | ⟨eb, sb, ib⟩ <;> rw [eb]
    · have key : ∀ h : 0 ≤ b, R.max < a * 2 ^ b.toNat := fun _ => by
        have := mul_pow_ge (a := a) (b := b) (by omega); omega
      rcases Int.lt_trichotomy b 0 with h | h | h
      · rw [prodFlag_lt ib h, prodFlag_pos]
        exact ⟨_, rfl, proper_pos R, Or.inr (Or.inl ⟨rfl, by omega, key, fun h => absurd h na⟩)⟩
      · subst h; rw [prodFlag_zero, prodFlag_pos]
        exact ⟨_, rfl, proper_pos R, Or.inr (Or.inl ⟨rfl, by omega, key, fun h => absurd h na⟩)⟩
      · rw [prodFlag_gt ib h, prodFlag_pos]
        exact ⟨_, rfl, proper_pos R, Or.inr (Or.inl ⟨rfl, by omega, key, fun h => absurd h na⟩)⟩
    · rw [prodFlag_pos]
      exact ⟨_, rfl, proper_pos R, Or.inr (Or.inl ⟨rfl, by omega, fun _ => mul_pow_big (by omega) ib, fun h => absurd h na⟩)⟩
    · rw [prodFlag_pos, prodFlag_neg]
      exact ⟨_, rfl, proper_range R, Or.inr (Or.inr (Or.inr ⟨vague_range, by omega, Or.inr ⟨by omega, na⟩⟩))⟩
    · rw [prodFlag_pos, prodFlag_dom]
      exact ⟨_, rfl, proper_range R, Or.inr (Or.inr (Or.inr ⟨vague_range, by omega, Or.inl ⟨sb, Or.inr ib⟩⟩))⟩
  · have na : ¬ R.In a := fun h => by have := h.1; omega
    unfold crShl crShift
    have key : ∀ h : 0 ≤ b, a * 2 ^ b.toNat ≤ R.min := fun _ => by
      have := mul_pow_le (a := a) (b := b) (by omega); omega
    rcases castTo_cases R b with ⟨eb, ib⟩ | ⟨eb, ib⟩ | ⟨eb, ib, sb⟩ | ⟨eb, sb, ib⟩ <;> rw [eb]
    · rcases Int.lt_trichotomy b 0 with h | h | h
      · rw [prodFlag_lt ib h, prodFlag_neg]
        exact ⟨_, rfl, proper_neg R, Or.inr (Or.inr (Or.inl ⟨rfl, by omega, key, fun h => absurd h na⟩))⟩
      · subst h; rw [prodFlag_zero, prodFlag_neg]
        exact ⟨_, rfl, proper_neg R, Or.inr (Or.inr (Or.inl ⟨rfl, by omega, key, fun h => absurd h na⟩))⟩
      · rw [prodFlag_gt ib h, prodFlag_neg]
        exact ⟨_, rfl, proper_neg R, Or.inr (Or.inr (Or.inl ⟨rfl, by omega, key, fun h => absurd h na⟩))⟩
    · rw [prodFlag_neg, prodFlag_pos]
      exact ⟨_, rfl, proper_neg R, Or.inr (Or.inr (Or.inl ⟨rfl, by omega, key, fun h => absurd h na⟩))⟩
    · rw [prodFlag_neg]
      exact ⟨_, rfl, proper_range R, Or.inr (Or.inr (Or.inr ⟨vague_range, by omega, Or.inr ⟨by omega, na⟩⟩))⟩
    · rw [sa] at sb; cases sb
  · unfold crShl crShift
    rw [prodFlag_dom]
    refine ⟨.err .range_error, ?_, proper_range R,
      Or.inr (Or.inr (Or.inr ⟨vague_range, by omega, Or.inl ⟨sa, Or.inl ia⟩⟩))⟩
    cases prodFlag R (castTo R b) <;> rfl

/-- the undefined case of `>>` on checked results -/
def ShrBad (R : ITy) (a b : Int) : Prop := R.signed = false ∧ Arch.intLg ≤ R.lg ∧ b = R.bits ∧ 0 < a

/-- `>>` on converted operands -/
theorem crShr_val {R : ITy} (hR : R.Ok) (a b : Int) (hub : ¬ ShrBad R a b) :
    ∃ r, crShr R (castTo R a) (castTo R b) = .ret r ∧ Proper R r ∧
      ((r = .ok (scale a (-b)) ∧ R.In a) ∨
       (r = .err .positive_overflow_error ∧ 0 < a ∧ (b ≤ 0 → R.max < a * 2 ^ (-b).toNat) ∧ (R.In a → b < 0)) ∨
       (r = .err .negative_overflow_error ∧ a < 0 ∧ (R.In a → b < 0)) ∨
       (Vague r ∧ a ≠ 0 ∧ (R.signed = false ∧ (a < 0 ∨ b < 0) ∨ R.max < b ∧ ¬ R.In a))) := by
  have hz := R.min_nonpos; have hm := R.max_ge
  rcases castTo_cases R a with ⟨ea, ia⟩ | ⟨ea, ia⟩ | ⟨ea, ia, sa⟩ | ⟨ea, sa, ia⟩ <;> rw [ea]
  · have i1 := ia.1; have i2 := ia.2
    rcases castTo_cases R b with ⟨eb, ib⟩ | ⟨eb, ib⟩ | ⟨eb, ib, sb⟩ | ⟨eb, sb, ib⟩ <;> rw [eb]
    · refine ⟨_, crShr_ok hR ia ib hub 0, ?_⟩
      split_ifs with h1 h2
      · have hb : b < 0 := by
          by_contra hb
          rcases Int.lt_trichotomy b 0 with h | h | h
          · omega
          · subst h; rw [scale_nonneg (by omega)] at h1; simp at h1; omega
          · rw [scale_neg (by omega)] at h1
            rcases Int.lt_or_le a 0 with h3 | h3
            · have := tdiv_neg_pos_bounds (a := a) (b := 2 ^ (- -b).toNat) (by omega) (two_pow_pos _); omega
            · have := tdiv_nonneg_bounds (a := a) (b := 2 ^ (- -b).toNat) (by omega) (two_pow_pos _); omega
        rw [scale_nonneg (by omega)] at h1
        refine ⟨proper_pos R, Or.inr (Or.inl ⟨rfl, ?_, fun _ => h1, fun _ => hb⟩)⟩
        by_contra h
        have := mul_pow_le (a := a) (b := -b) (by omega); omega
      · exact ⟨proper_neg R, Or.inr (Or.inr (Or.inl ⟨rfl, h2.1, fun _ => h2.2.1⟩))⟩
      · refine ⟨⟨?_, by omega⟩, Or.inl ⟨rfl, ia⟩⟩
        rcases Int.lt_trichotomy b 0 with hb | hb | hb
        · rcases Int.lt_or_le a 0 with h3 | h3
          · omega
          · rw [scale_nonneg (by omega)]; have := mul_pow_ge (b := -b) h3; omega
        · subst hb; rw [scale_nonneg (by omega)]; simpa using i1
        · rw [scale_neg (by omega)]
          rcases Int.lt_or_le a 0 with h3 | h3
          · have := tdiv_neg_pos_bounds (a := a) (b := 2 ^ (- -b).toNat) (by omega) (two_pow_pos _); omega
          · have := tdiv_nonneg_bounds (a := a) (b := 2 ^ (- -b).toNat) (by omega) (two_pow_pos _); omega
    · have hsc : scale a (-b) = 0 := by
        rw [scale_neg (by omega), Int.neg_neg]
        have e := ITy.min_eq R
        exact tdiv_big (m := R.max) (by split at e <;> omega) (by omega) (by omega) (by omega)
      unfold crShr crShift
      rw [hsc]
      rcases Int.lt_trichotomy a 0 with h | h | h
      · rw [prodFlag_lt ia h, prodFlag_pos]
        exact ⟨_, rfl, R.in_zero, Or.inl ⟨rfl, ia⟩⟩
      · subst h; rw [prodFlag_zero, prodFlag_pos]
        exact ⟨_, rfl, ia, Or.inl ⟨rfl, ia⟩⟩
      · rw [prodFlag_gt ia h, prodFlag_pos]
        exact ⟨_, rfl, R.in_zero, Or.inl ⟨rfl, ia⟩⟩
    · have e : R.min = -R.max - 1 := by have := ITy.min_eq R; simpa [sb] using this
      unfold crShr crShift
      rcases Int.lt_trichotomy a 0 with h | h | h
      · rw [prodFlag_lt ia h, prodFlag_neg]
        exact ⟨_, rfl, proper_neg R, Or.inr (Or.inr (Or.inl ⟨rfl, h, fun _ => by omega⟩))⟩
      · subst h; rw [prodFlag_zero, prodFlag_neg]
        exact ⟨_, rfl, ia, Or.inl ⟨by rw [scale_zero_left], ia⟩⟩
      · rw [prodFlag_gt ia h, prodFlag_neg]
        exact ⟨_, rfl, proper_pos R,
          Or.inr (Or.inl ⟨rfl, h, fun _ => mul_pow_big h (by omega), fun _ => by omega⟩)⟩
    · unfold crShr crShift
      rcases Int.lt_trichotomy a 0 with h | h | h
      · have := ia.nonneg sb; omega
      · subst h; rw [prodFlag_zero, prodFlag_dom]
        exact ⟨_, rfl, ia, Or.inl ⟨by rw [scale_zero_left], ia⟩⟩
      · rw [prodFlag_gt ia h, prodFlag_dom]
        exact ⟨_, rfl, proper_range R, Or.inr (Or.inr (Or.inr ⟨vague_range, by omega, Or.inl ⟨sb, Or.inr ib⟩⟩))⟩
  · have na : ¬ R.In a := fun h => by have := h.2; omega
    unfold crShr crShift
    have key : ∀ h : b ≤ 0, R.max < a * 2 ^ (-b).toNat := fun _ => by
      have := mul_pow_ge (a := a) (b := -b) (by omega); omega
    rcases castTo_cases R b with ⟨eb, ib⟩ | ⟨eb, ib⟩ | ⟨eb, ib, sb⟩ | ⟨eb, sb, ib⟩ <;> rw [eb]
    · rcases Int.lt_trichotomy b 0 with h | h | h
      · rw [prodFlag_lt ib h, prodFlag_pos]
        exact ⟨_, rfl, proper_pos R, Or.inr (Or.inl ⟨rfl, by omega, key, fun h => absurd h na⟩)⟩
      · subst h; rw [prodFlag_zero, prodFlag_pos]
        exact ⟨_, rfl, proper_pos R, Or.inr (Or.inl ⟨rfl, by omega, key, fun h => absurd h na⟩)⟩
      · rw [prodFlag_gt ib h, prodFlag_pos]
        exact ⟨_, rfl, proper_pos R, Or.inr (Or.inl ⟨rfl, by omega, key, fun h => absurd h na⟩)⟩
    · rw [prodFlag_pos]
      exact ⟨_, rfl, proper_range R, Or.inr (Or.inr (Or.inr ⟨vague_range, by omega, Or.inr ⟨by omega, na⟩⟩))⟩
    · rw [prodFlag_pos, prodFlag_neg]
      exact ⟨_, rfl, proper_pos R, Or.inr (Or.inl ⟨rfl, by omega, key, fun h => absurd h na⟩)⟩
    · rw [prodFlag_pos, prodFlag_dom]
      exact ⟨_, rfl, proper_range R, Or.inr (Or.inr (Or.inr ⟨vague_range, by omega, Or.inl ⟨sb, Or.inr ib⟩⟩))⟩
  · have na : ¬ R.In a := fun h => by have := h.1; omega
    unfold crShr crShift
    rcases castTo_cases R b with ⟨eb, ib⟩ | ⟨eb, ib⟩ | ⟨eb, ib, sb⟩ | ⟨eb, sb, ib⟩ <;> rw [eb]
    · rcases Int.lt_trichotomy b 0 with h | h | h
      · rw [prodFlag_lt ib h, prodFlag_neg]
        exact ⟨_, rfl, proper_neg R, Or.inr (Or.inr (Or.inl ⟨rfl, by omega, fun h => absurd h na⟩))⟩
      · subst h; rw [prodFlag_zero, prodFlag_neg]
        exact ⟨_, rfl, proper_neg R, Or.inr (Or.inr (Or.inl ⟨rfl, by omega, fun h => absurd h na⟩))⟩
      · rw [prodFlag_gt ib h, prodFlag_neg]
        exact ⟨_, rfl, proper_neg R, Or.inr (Or.inr (Or.inl ⟨rfl, by omega, fun h => absurd h na⟩))⟩
    · rw [prodFlag_neg, prodFlag_pos]
      exact ⟨_, rfl, proper_range R, Or.inr (Or.inr (Or.inr ⟨vague_range, by omega, Or.inr ⟨by omega, na⟩⟩))⟩
    · rw [prodFlag_neg]
      exact ⟨_, rfl, proper_neg R, Or.inr (Or.inr (Or.inl ⟨rfl, by omega, fun h => absurd h na⟩))⟩
    · rw [sa] at sb; cases sb
  · unfold crShr crShift
    rw [prodFlag_dom]
    refine ⟨.err .range_error, ?_, proper_range R,
      Or.inr (Or.inr (Or.inr ⟨vague_range, by omega, Or.inl ⟨sa, Or.inl ia⟩⟩))⟩
    cases prodFlag R (castTo R b) <;> rfl

theorem crShl_vague {R : ITy} {a b : Int} (hs : R.signed = false) (ha : a ≠ 0) (h : a < 0 ∨ b < 0) :
    crShl R (castTo R a) (castTo R b) = .ret (.err .range_error) := by
  have hz := R.min_nonpos; have hm := R.max_ge
  unfold crShl crShift
  rcases castTo_cases R a with ⟨ea, ia⟩ | ⟨ea, ia⟩ | ⟨ea, ia, sa⟩ | ⟨ea, sa, ia⟩ <;> rw [ea]
  · have := ia.nonneg hs
    rw [show castTo R b = .err .domain_error by unfold castTo; rw [if_pos ⟨hs, by omega⟩],
      prodFlag_gt ia (by omega)]; rfl
  · rw [show castTo R b = .err .domain_error by unfold castTo; rw [if_pos ⟨hs, by omega⟩]]; rfl
  · rw [hs] at sa; cases sa
  · rw [prodFlag_dom]
    cases prodFlag R (castTo R b) <;> rfl

theorem crShr_vague {R : ITy} {a b : Int} (hs : R.signed = false) (ha : a ≠ 0) (h : a < 0 ∨ b < 0) :
    crShr R (castTo R a) (castTo R b) = .ret (.err .range_error) := by
  have hz := R.min_nonpos; have hm := R.max_ge
  unfold crShr crShift
  rcases castTo_cases R a with ⟨ea, ia⟩ | ⟨ea, ia⟩ | ⟨ea, ia, sa⟩ | ⟨ea, sa, ia⟩ <;> rw [ea]
  · have := ia.nonneg hs
    rw [show castTo R b = .err .domain_error by unfold castTo; rw [if_pos ⟨hs, by omega⟩],
      prodFlag_gt ia (by omega)]; rfl
  · rw [show castTo R b = .err .domain_error by unfold castTo; rw [if_pos ⟨hs, by omega⟩]]; rfl
  · rw [hs] at sa; cases sa
  · rw [prodFlag_dom]
    cases prodFlag R (castTo R b) <;> rfl

/-- what the corner rule computes -/
theorem corners_spec {R : ITy} {op : CR → CR → Out CR} {t u : Itv CR} {c1 c2 c3 c4 : CR}
    (e1 : op t.l u.l = .ret c1) (e2 : op t.l u.u = .ret c2) (e3 : op t.u u.l = .ret c3) (e4 : op t.u u.u = .ret c4)
    (p1 : Proper R c1) (p2 : Proper R c2) (p3 : Proper R c3) (p4 : Proper R c4) :
    ∃ ri, corners R op t u = .ret ri ∧ Proper R ri.l ∧ Proper R ri.u ∧
      ((Vague c1 ∧ Vague ri.l ∧ Vague ri.u) ∨
       (¬ Vague c1 ∧ ∀ c, c ∈ [c1, c2, c3, c4] → ¬ Vague c →
          (∀ v, ri.l = .ok v → v ≤ c.key R) ∧ (∀ v, ri.u = .ok v → c.key R ≤ v))) := by
  have hp : ∀ c ∈ [c1, c2, c3, c4], Proper R c := by
    intro c hc; simp at hc; rcases hc with rfl | rfl | rfl | rfl <;> assumption
  obtain ⟨m, M, e, hmem, hMem, hh⟩ := minmax_cr c1 [c2, c3, c4] hp
  refine ⟨⟨m, M⟩, ?_, hp m hmem, hp M hMem, ?_⟩
  · simp only [corners, minmax4, e1, e2, e3, e4, e, Out.ret_bind]
  · rcases hh with ⟨va, rfl, rfl⟩ | ⟨va, _, _, hh⟩
    · exact Or.inl ⟨va, va, va⟩
    · refine Or.inr ⟨va, fun c hc hv => ⟨?_, ?_⟩⟩
      · intro v e; obtain rfl : m = .ok v := e; exact (hh c hc hv).1
      · intro v e; obtain rfl : M = .ok v := e; exact (hh c hc hv).2

omit [Arch] in
theorem key_ok (R : ITy) (v : Int) : (CR.ok v).key R = v := rfl
omit [Arch] in
theorem key_pos (R : ITy) : (CR.err .positive_overflow_error).key R = R.max + 1 := rfl
omit [Arch] in
theorem key_neg (R : ITy) : (CR.err .negative_overflow_error).key R = R.min - 1 := rfl

omit [Arch] in
theorem mul_pow_mono {a b t u : Int} (ha : 0 ≤ a) (hat : a ≤ t) (hbu : b ≤ u) : a * 2 ^ b.toNat ≤ t * 2 ^ u.toNat := by
  have h1 := two_pow_le (show b.toNat ≤ u.toNat by omega)
  exact Int.mul_le_mul hat h1 (Int.le_of_lt (two_pow_pos _)) (by omega)

omit [Arch] in
theorem scale_nonpos {a b : Int} (ha : a ≤ 0) : scale a b ≤ 0 := by
  rcases Int.lt_or_le b 0 with h | h
  · rw [scale_neg h]
    have := tdiv_neg_pos_bounds (a := a) (b := 2 ^ (-b).toNat) ha (two_pow_pos _); omega
  · rw [scale_nonneg h]; have := mul_pow_le (b := b) ha; omega

/-- the interval of `<<`: it exists; what it says when it has ordinary ends; what it contains -/
theorem shl_res {R : ITy} (hR : R.Ok) {T U : Opd} (hT : T.Wf) (hU : U.Wf) :
    ∃ ri, resItv itvShl R T U = .ret ri ∧ Proper R ri.l ∧ Proper R ri.u ∧
      (0 < T.hi → 0 ≤ U.hi → ∀ v, ri.u = .ok v → T.hi * 2 ^ U.hi.toNat ≤ R.max) ∧
      (∀ t u, T.Has t → U.Has u → R.In t → R.In (t * 2 ^ u.toNat) → 0 ≤ u → (t < 0 → u = 0) →
        Held ri (t * 2 ^ u.toNat)) := by
  have hz := R.min_nonpos; have hm := R.max_ge
  obtain ⟨c1, e1, p1, f1⟩ := crShl_val hR T.lo U.lo
  obtain ⟨c2, e2, p2, f2⟩ := crShl_val hR T.lo U.hi
  obtain ⟨c3, e3, p3, f3⟩ := crShl_val hR T.hi U.lo
  obtain ⟨c4, e4, p4, f4⟩ := crShl_val hR T.hi U.hi
  obtain ⟨ri, e, q1, q2, hh⟩ := corners_spec (R := R) (op := crShl R) (t := ⟨castTo R T.lo, castTo R T.hi⟩)
    (u := ⟨castTo R U.lo, castTo R U.hi⟩) e1 e2 e3 e4 p1 p2 p3 p4
  refine ⟨ri, resItv_of hT hU e, q1, q2, ?_, ?_⟩
  · intro hT0 hU0 v hv
    rcases hh with ⟨_, _, va⟩ | ⟨va, hh⟩
    · rw [hv] at va; exact absurd va (not_vague_ok v)
    · have pv : R.In v := by rw [hv] at q2; exact q2
      rcases f4 with ⟨rfl, i⟩ | ⟨rfl, _, g, _⟩ | ⟨rfl, g, _⟩ | ⟨_, _, ⟨_, g⟩ | ⟨g, _⟩⟩
      · have : R.In (scale T.hi U.hi) := p4
        rw [scale_nonneg hU0] at this; exact this.2
      · have := (hh _ (by simp) not_vague_pos).2 v hv
        rw [key_pos] at this; have := pv.2; omega
      · omega
      · omega
      · omega
  · intro t u ht hu it ix hu0 hneg
    have t1 := ht.1; have t2 := ht.2; have u1 := hu.1; have u2 := hu.2
    have i1 := it.1; have i2 := it.2; have x1 := ix.1; have x2 := ix.2
    rcases hh with ⟨_, vl, vu⟩ | ⟨va, hh⟩
    · exact ⟨fun v h => by rw [h] at vl; exact absurd vl (not_vague_ok v),
        fun v h => by rw [h] at vu; exact absurd vu (not_vague_ok v)⟩
    · rcases Int.lt_or_le t 0 with tn | tp
      · obtain rfl := hneg tn
        have sg : R.signed = true := by
          rcases hs : R.signed with _ | _
          · have := it.nonneg hs; omega
          · rfl
        have ex : t * 2 ^ (0 : Int).toNat = t := by simp
        rw [ex]
        constructor
        · intro v hv
          have hh2 := fun h => (hh c2 (by simp) h).1 v hv
          rcases f2 with ⟨rfl, i⟩ | ⟨rfl, g, _⟩ | ⟨rfl, _⟩ | ⟨_, _, ⟨g, _⟩ | ⟨g, _⟩⟩
          · have := hh2 (not_vague_ok _)
            rw [key_ok, scale_nonneg u2] at this
            have := mul_pow_le (a := T.lo) (b := U.hi) (by omega); omega
          · omega
          · have := hh2 not_vague_neg
            rw [key_neg] at this; omega
          · rw [sg] at g; cases g
          · omega
        · intro v hv
          have hh3 := fun h => (hh c3 (by simp) h).2 v hv
          have hh4 := fun h => (hh c4 (by simp) h).2 v hv
          rcases Int.lt_or_le T.hi 0 with hn | hn
          · rcases f3 with ⟨rfl, i⟩ | ⟨rfl, g, _⟩ | ⟨rfl, _, _, g⟩ | ⟨_, _, ⟨g, _⟩ | ⟨_, g⟩⟩
            · have := hh3 (not_vague_ok _)
              rw [key_ok] at this
              rcases Int.lt_or_le U.lo 0 with h | h
              · rw [scale_neg h] at this
                have := tdiv_neg_pos_bounds (a := T.hi) (b := 2 ^ (-U.lo).toNat) (by omega) (two_pow_pos _); omega
              · have h0 : U.lo = 0 := by omega
                rw [h0, scale_nonneg (by omega)] at this
                simp at this; omega
            · omega
            · have := g ⟨by omega, by omega⟩; omega
            · rw [sg] at g; cases g
            · exact absurd ⟨by omega, by omega⟩ g
          · rcases f4 with ⟨rfl, i⟩ | ⟨rfl, _⟩ | ⟨rfl, g, _⟩ | ⟨_, _, ⟨_, g⟩ | ⟨g, _⟩⟩
            · have := hh4 (not_vague_ok _)
              rw [key_ok, scale_nonneg u2] at this
              have := mul_pow_ge (b := U.hi) hn; omega
            · have := hh4 not_vague_pos
              rw [key_pos] at this; omega
            · omega
            · omega
            · omega
      · have xp : 0 ≤ t * 2 ^ u.toNat := by have := mul_pow_ge (b := u) tp; omega
        constructor
        · intro v hv
          have hh1 := fun h => (hh c1 (by simp) h).1 v hv
          rcases Int.lt_or_le T.lo 0 with hn | hn
          · rcases f1 with ⟨rfl, i⟩ | ⟨rfl, g, _⟩ | ⟨rfl, _⟩ | ⟨g, _⟩
            · have := hh1 (not_vague_ok _)
              rw [key_ok] at this
              have := scale_nonpos (a := T.lo) (b := U.lo) (by omega); omega
            · omega
            · have := hh1 not_vague_neg
              rw [key_neg] at this; omega
            · exact absurd g va
          · have iT : R.In T.lo := ⟨by omega, by omega⟩
            rcases f1 with ⟨rfl, i⟩ | ⟨rfl, _, g1, g2⟩ | ⟨rfl, g, _⟩ | ⟨g, _⟩
            · have := hh1 (not_vague_ok _)
              rw [key_ok] at this
              rcases Int.lt_or_le U.lo 0 with h | h
              · rw [scale_neg h] at this
                have := tdiv_nonneg_bounds (a := T.lo) (b := 2 ^ (-U.lo).toNat) (by omega) (two_pow_pos _)
                have := mul_pow_ge (b := u) tp; omega
              · rw [scale_nonneg h] at this
                have := mul_pow_mono hn t1 u1; omega
            · have h := g2 iT
              have := g1 h
              have := mul_pow_mono hn t1 u1; omega
            · omega
            · exact absurd g va
        · intro v hv
          have hh4 := fun h => (hh c4 (by simp) h).2 v hv
          rcases f4 with ⟨rfl, i⟩ | ⟨rfl, _⟩ | ⟨rfl, g, _⟩ | ⟨_, _, ⟨_, g⟩ | ⟨g, _⟩⟩
          · have := hh4 (not_vague_ok _)
            rw [key_ok, scale_nonneg (by omega)] at this
            have := mul_pow_mono tp t2 u2; omega
          · have := hh4 not_vague_pos
            rw [key_pos] at this; omega
          · omega
          · omega
          · omega

end
end Verif
