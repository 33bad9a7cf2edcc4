import Verif.Proofs.Utility2

/-! Properties C11, C13, C14, C17: `utility.hpp`. -/

namespace Verif.Props
section
variable [Arch]

/-! ### C11 -/

/-- C11, ilog2 of a positive value -/
theorem C11_ilog2 (T : ITy) (hT : T.Ok) (t : Int) (ht : T.In t) (h0 : 0 < t) :
    ∃ k : Nat, ilog2 T t = .ret (k : Int) ∧ 2 ^ k ≤ t ∧ t < 2 ^ (k + 1) := by
  refine ⟨_, ilog2_eq hT ht (by omega), ?_⟩
  obtain ⟨h1, h2⟩ := (Nat.log2_eq_iff (show t.toNat ≠ 0 by omega)).mp rfl
  zify at h1 h2
  rw [Int.toNat_of_nonneg (by omega)] at h1 h2
  exact ⟨h1, h2⟩

omit [Arch] in
/-- C11, uniqueness of that `k` -/
theorem C11_unique (t : Int) (j k : Nat) (hj : 2 ^ j ≤ t ∧ t < 2 ^ (j + 1)) (hk : 2 ^ k ≤ t ∧ t < 2 ^ (k + 1)) :
    j = k := by
  by_contra hne
  rcases Nat.lt_or_gt_of_ne hne with h | h
  · have := two_pow_le (show j + 1 ≤ k from h); omega
  · have := two_pow_le (show k + 1 ≤ j from h); omega

/-- C11, significant_bits: the least `n ≥ 1` that is enough -/
theorem C11_significantBits (T : ITy) (hT : T.Ok) (t : Int) (ht : T.In t) :
    ∃ n : Nat, significantBits T t = .ret (n : Int) ∧ 1 ≤ n ∧
      (0 ≤ t → t < 2 ^ n) ∧ (t < 0 → - 2 ^ n ≤ t) ∧
      ∀ m : Nat, 1 ≤ m → (0 ≤ t → t < 2 ^ m) → (t < 0 → - 2 ^ m ≤ t) → n ≤ m := by
  refine ⟨sbits t, (significantBits_eq hT ht).1, sbits_pos t, lt_two_pow_sbits, neg_two_pow_sbits_le, ?_⟩
  intro m hm h1 h2
  by_cases h0 : t < 0
  · rw [sbits_neg h0]; exact sbits_le_of_lt hm (by omega) (by have := h2 h0; omega)
  · exact sbits_le_of_lt hm (by omega) (h1 (by omega))

example : @ilog2 lp64 u64 (2^63 + 5) = .ret 63 := by decide +kernel
example : @significantBits lp64 i64 (-2^63) = .ret 63 := by decide +kernel
example : @significantBits lp64 i8 0 = .ret 1 := by decide +kernel
example : i64.In (-2^63) ∧ @ITy.Ok lp64 i64 := by decide

/-! ### C13 -/

/-- C13, signed ranges -/
theorem C13_signed (mn mx : Int) (h1 : tIntMax.In mn) (h2 : tIntMax.In mx) (_hle : mn ≤ mx) :
    ∃ S : ITy, signedStoredType mn mx = .ret S ∧ S.signed = true ∧ S.Ok ∧
      (∀ v, mn ≤ v → v ≤ mx → S.In v) ∧
      ∀ S' : ITy, S'.signed = true → (∀ v, mn ≤ v → v ≤ mx → S'.In v) → S.lg ≤ S'.lg := by
  obtain ⟨S, e, hs, hok, a, b, hmin⟩ := signedStoredType_spec h1 h2
  exact ⟨S, e, hs, hok, fun v hv hv' => in_of_between a b hv hv',
    fun S' hs' h => hmin S' hs' (h mn (by omega) _hle) (h mx _hle (by omega))⟩

/-- C13, unsigned ranges -/
theorem C13_unsigned (mn mx : Int) (h1 : tUIntMax.In mn) (h2 : tUIntMax.In mx) (hle : mn ≤ mx) :
    ∃ S : ITy, unsignedStoredType mn mx = .ret S ∧ S.signed = false ∧ S.Ok ∧
      (∀ v, mn ≤ v → v ≤ mx → S.In v) ∧
      ∀ S' : ITy, S'.signed = false → (∀ v, mn ≤ v → v ≤ mx → S'.In v) → S.lg ≤ S'.lg := by
  obtain ⟨S, e, hs, hok, b, hmin⟩ := unsignedStoredType_spec (mn := mn) h2
  have h0 := h1.nonneg rfl
  exact ⟨S, e, hs, hok, fun v hv hv' => in_of_between S.in_zero b (by omega) hv',
    fun S' hs' h => hmin S' hs' (h mx hle (by omega))⟩

example : @signedStoredType lp64 (-128) 127 = .ret i8 := by decide +kernel
example : @signedStoredType lp64 (-129) 0 = .ret i16 := by decide +kernel
example : @signedStoredType lp64 0 (2^31) = .ret i64 := by decide +kernel
example : @unsignedStoredType lp64 0 255 = .ret u8 := by decide +kernel
example : @unsignedStoredType lp64 0 256 = .ret u16 := by decide +kernel
example : @ITy.In (@tIntMax lp64) (-129) := by decide

/-! ### C14 -/

/-- C14 for unsigned types (the only ones the library itself uses it with) and for types narrower than
`int`, plus every value below half of the positive range. Missing: signed types at least as wide as `int` with
a value in the upper half, where the code overflows (next theorem). -/
theorem C14_roundOut_nonneg_partial (T : ITy) (hT : T.Ok) (t : Int) (ht : T.In t) (h0 : 0 ≤ t)
    (hh : T.signed = false ∨ T.lg < Arch.intLg ∨ 2 * t < 2 ^ T.digits) :
    ∃ n : Nat, 1 ≤ n ∧ roundOut T t = .ret (2 ^ n - 1) ∧ t ≤ 2 ^ n - 1 ∧
      ∀ m : Nat, 1 ≤ m → t ≤ 2 ^ m - 1 → n ≤ m := by
  refine ⟨sbits t, sbits_pos t, roundOut_nonneg hT ht h0 ?_, ?_, ?_⟩
  · rcases hh with h | h | h
    · exact Or.inl h
    · exact Or.inr (Or.inl h)
    · refine Or.inr (Or.inr ?_)
      have hd := T.digits_ge
      have : t < 2 ^ (T.digits - 1) := by
        have e : (2 : Int) ^ T.digits = 2 * 2 ^ (T.digits - 1) := by
          rw [← two_pow_succ', show T.digits - 1 + 1 = T.digits by omega]
        omega
      have := sbits_le_of_lt (n := T.digits - 1) (by omega) h0 this
      omega
  · have := lt_two_pow_sbits h0; omega
  · intro m hm h
    exact sbits_le_of_lt hm h0 (by omega)

/-- C14 for negative values, same restriction. -/
theorem C14_roundOut_neg_partial (T : ITy) (hT : T.Ok) (t : Int) (ht : T.In t) (h0 : t < 0)
    (hh : T.lg < Arch.intLg ∨ - 2 ^ T.digits ≤ 2 * t) :
    ∃ n : Nat, 1 ≤ n ∧ roundOut T t = .ret (- 2 ^ n) ∧ - 2 ^ n ≤ t := by
  refine ⟨sbits t, sbits_pos t, roundOut_neg hT ht h0 ?_, neg_two_pow_sbits_le h0⟩
  rcases hh with h | h
  · exact Or.inl h
  · refine Or.inr ?_
    have hd := T.digits_ge
    rw [sbits_neg h0]
    have : -t - 1 < 2 ^ (T.digits - 1) := by
      have e : (2 : Int) ^ T.digits = 2 * 2 ^ (T.digits - 1) := by
        rw [← two_pow_succ', show T.digits - 1 + 1 = T.digits by omega]
      omega
    have := sbits_le_of_lt (n := T.digits - 1) (by omega) (by omega) this
    omega

omit [Arch] in
/-- The full C14 fails: `round_out` of a large `int` overflows, whichever its sign. -/
theorem C14_roundOut_refuted :
    @roundOut lp64 i32 (2^30) = .fault .ub ∧ @roundOut lp64 i32 (-2^31) = .fault .ub := by decide +kernel

example : @roundOut lp64 u32 (2^31) = .ret (2^32 - 1) := by decide +kernel
example : @roundOut lp64 i16 300 = .ret 511 := by decide +kernel
example : @roundOut lp64 i16 (-300) = .ret (-512) := by decide +kernel

end

/-! ### C17 -/

/-- C17: any list length, any strict total order (`x < y`, `x = y` or `y < x`). -/
theorem C17_minmax {α : Type} (lt : α → α → Bool) (irr : ∀ a, lt a a = false)
    (tr : ∀ a b c, lt a b = true → lt b c = true → lt a c = true)
    (tot : ∀ a b, lt a b = true ∨ a = b ∨ lt b a = true) (l : List α) (hl : l ≠ []) :
    ∃ a b, minmax lt l = .ret (a, b) ∧ a ∈ l ∧ b ∈ l ∧
      ∀ x ∈ l, (a = x ∨ lt a x = true) ∧ (b = x ∨ lt x b = true) := by
  have asym : ∀ a b, lt a b = true → lt b a = false := by
    intro a b h
    cases h' : lt b a with
    | false => rfl
    | true => have := tr _ _ _ h h'; rw [irr] at this; exact absurd this (by decide)
  have ntr : ∀ a b c, lt b a = false → lt c b = false → lt c a = false := by
    intro a b c h1 h2
    cases h : lt c a with
    | false => rfl
    | true =>
      rcases tot a b with h3 | h3 | h3
      · have := tr _ _ _ h h3; rw [h2] at this; exact absurd this (by decide)
      · subst h3; rw [h2] at h; exact h.symm ▸ rfl
      · rw [h1] at h3; exact absurd h3 (by decide)
  cases l with
  | nil => exact absurd rfl hl
  | cons a l =>
    have := minmax_fold lt irr ntr asym (a :: l) (a, a) [a] (by simp) (by simp) (by simp [irr])
    simp only at this
    generalize hq : (a :: l).foldl (minmaxStep lt) (a, a) = q at this
    obtain ⟨h1, h2, h3⟩ := this
    refine ⟨q.1, q.2, by simp only [minmax, hq], by simpa using h1, by simpa using h2, ?_⟩
    intro x hx
    obtain ⟨h4, h5⟩ := h3 x (List.mem_append_right _ hx)
    constructor
    · rcases tot q.1 x with h | h | h
      · exact Or.inr h
      · exact Or.inl h
      · rw [h4] at h; exact absurd h (by decide)
    · rcases tot q.2 x with h | h | h
      · rw [h5] at h; exact absurd h (by decide)
      · exact Or.inl h
      · exact Or.inr h

/-- the empty list is the only one rejected -/
theorem C17_empty {α : Type} (lt : α → α → Bool) (l : List α) :
    minmax lt l = .fault .assertFail ↔ l = [] := by
  cases l <;> simp [minmax]

example : minmax (fun a b : Int => decide (a < b)) [3, -1, 7, 7, -1, 2] = .ret (-1, 7) := by decide

end Verif.Props
