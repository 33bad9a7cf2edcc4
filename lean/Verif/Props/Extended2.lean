import Verif.Proofs.SafeDiv
import Verif.Props.Checked

/-!
Properties C63, C64, C65: remainder, bitwise operators and quotients of overflow markers for `checked_result`
("extended integers").
-/

namespace Verif.Props
open Spec
section
variable [Arch]

/-- remainder of two ordinary values (lemma) -/
theorem crMod_values {R : ITy} {a b : Int} (ha : R.In a) (hb : R.In b) (h0 : b ≠ 0) :
    crMod R (.ok a) (.ok b) =
      .ret (.ok (if R.signed = true ∧ a = R.min ∧ b = R.min then a else a.tmod b)) := by
  have key : modulus R make a b =
      .ret (.ok (if R.signed = true ∧ a = R.min ∧ b = R.min then a else a.tmod b)) := by
    rw [modulus_eq ha hb, if_neg h0]; split_ifs <;> rfl
  unfold crMod
  rcases Int.lt_or_gt_of_ne h0 with h2 | h2
  · rw [prodFlag_lt hb h2]
    rcases Int.lt_trichotomy a 0 with h1 | h1 | h1
    · rw [prodFlag_lt ha h1]; exact key
    · subst h1
      rw [prodFlag_zero, Int.zero_tmod, ite_self]; rfl
    · rw [prodFlag_gt ha h1]; exact key
  · rw [prodFlag_gt hb h2]
    rcases Int.lt_trichotomy a 0 with h1 | h1 | h1
    · rw [prodFlag_lt ha h1]; exact key
    · subst h1
      rw [prodFlag_zero, Int.zero_tmod, ite_self]; rfl
    · rw [prodFlag_gt ha h1]; exact key

private theorem crMod_marker {R : ITy} {a : Int} (ha : R.In a) :
    crMod R (.ok a) (.err .negative_overflow_error) = .ret (.ok a) ∧
    crMod R (.ok a) (.err .positive_overflow_error) = .ret (.ok a) := by
  unfold crMod
  rcases Int.lt_trichotomy a 0 with h1 | h1 | h1
  · rw [prodFlag_lt ha h1]; exact ⟨rfl, rfl⟩
  · subst h1; rw [prodFlag_zero]; exact ⟨rfl, rfl⟩
  · rw [prodFlag_gt ha h1]; exact ⟨rfl, rfl⟩

/-! ### C63 remainder

C63 in full: `Describes R t x → Describes R u y → y ≠ 0 → ∃ c, crMod R t u = .ret c ∧ Describes R c (x.tmod y)`. False for
the unchanged code when the dividend is an overflow marker (`C63_refuted`): the operator returns the extreme remainder, which
it needs for interval bounds. -/

/-- C63 for a dividend that is an ordinary value, excluding the same two defects as in C45 and the pair (min, min) of
C07. -/
theorem C63_mod_partial (R : ITy) (a : Int) (u : CR) (y : Int) (ha : R.In a) (hu : Describes R u y) (h0 : y ≠ 0)
    (h1 : u = .err .negative_overflow_error → R.signed = true)
    (h2 : ¬ (u = .err .positive_overflow_error ∧ y = R.max + 1 ∧ a = R.min ∧ R.signed = true))
    (h3 : ¬ (R.signed = true ∧ a = R.min ∧ u = .ok R.min)) :
    ∃ c, crMod R (.ok a) u = .ret c ∧ Describes R c (a.tmod y) := by
  have hz := R.min_nonpos; have hm := R.max_ge
  have e := ITy.min_eq R
  have ha1 := ha.1; have ha2 := ha.2
  have small : a.tdiv y = 0 → a.tmod y = a := fun h => by
    have := Int.mul_tdiv_add_tmod a y
    rw [h] at this; simpa using this
  rcases u.cases4 with ⟨b, rfl⟩ | rfl | rfl | hv
  · obtain ⟨hb, rfl⟩ := hu
    refine ⟨_, crMod_values ha hb h0, ?_⟩
    rw [if_neg (fun h => h3 ⟨h.1, h.2.1, by rw [h.2.2]⟩)]
    exact ⟨tmod_in ha, rfl⟩
  · have hu : y < R.min := hu
    rw [h1 rfl, if_pos rfl] at e
    refine ⟨_, (crMod_marker ha).1, ha, ?_⟩
    exact small (tdiv_eq_zero_of_abs (by omega) (by omega) (by omega) (by omega))
  · have hu : R.max < y := hu
    refine ⟨_, (crMod_marker ha).2, ha, ?_⟩
    have h3 : ¬ (y = R.max + 1 ∧ a = R.min ∧ R.signed = true) := fun h => h2 ⟨rfl, h⟩
    exact small (tdiv_eq_zero_of_abs (by split at e <;> omega) (by split at e <;> simp_all <;> omega)
      (by split at e <;> omega) (by split at e <;> simp_all <;> omega))
  · exact ⟨_, crMod_vague (Or.inr hv), trivial⟩

example : @crMod lp64 i8 (.ok (-7)) (.ok 3) = .ret (.ok (-1)) := by decide
example : @crMod lp64 i8 (.ok (-128)) (.err .negative_overflow_error) = .ret (.ok (-128))
    ∧ Describes i8 (.err .negative_overflow_error) (-129) := by decide

/-- No operands (as the library makes them) lead to undefined behaviour or a failing assertion; a zero divisor and operands
whose value is unknown give `range_error`. -/
theorem C63_total (R : ITy) (t u : CR) (ht : Proper R t) (hu : Proper R u) :
    (∃ c, crMod R t u = .ret c ∧ Proper R c) ∧
    ((u = .ok 0 ∨ (∃ e, (t = .err e ∨ u = .err e) ∧ e ≠ .positive_overflow_error ∧ e ≠ .negative_overflow_error)) →
      crMod R t u = .ret (.err .range_error)) := by
  obtain ⟨c, h1, h2, _⟩ := crMod_total ht hu
  refine ⟨⟨c, h1, h2⟩, ?_⟩
  rintro (rfl | ⟨e, h, hp, hn⟩)
  · rcases t.cases4 with ⟨a, rfl⟩ | rfl | rfl | hv
    · have ha : R.In a := ht
      unfold crMod
      rw [prodFlag_zero]
      rcases Int.lt_trichotomy a 0 with h1 | h1 | h1
      · rw [prodFlag_lt ha h1]; rfl
      · subst h1; rw [prodFlag_zero]; rfl
      · rw [prodFlag_gt ha h1]; rfl
    · unfold crMod; rw [prodFlag_zero]; rfl
    · unfold crMod; rw [prodFlag_zero]; rfl
    · exact crMod_vague (Or.inl hv)
  · exact crMod_vague (h.imp (fun h => ⟨e, h, hp, hn⟩) (fun h => ⟨e, h, hp, hn⟩))

example : Proper i8 (.ok (-128)) ∧ Proper i8 (.err .positive_overflow_error) := by decide

/-- A dividend beyond the range and a divisor `b > 0`: the result is the extreme remainder of `b` on that side; it
bounds the remainder of every integer of that sign, and is the remainder of some integer beyond the range. -/
theorem C63_extreme (R : ITy) (b : Int) (hb : R.In b) (h0 : 0 < b) :
    (crMod R (.err .positive_overflow_error) (.ok b) = .ret (.ok (b - 1)) ∧
      (∀ x, R.max < x → x.tmod b ≤ b - 1) ∧ ∃ x, R.max < x ∧ x.tmod b = b - 1) ∧
    (R.signed = true → crMod R (.err .negative_overflow_error) (.ok b) = .ret (.ok (1 - b)) ∧
      (∀ x, x < R.min → 1 - b ≤ x.tmod b) ∧ ∃ x, x < R.min ∧ x.tmod b = 1 - b) := by
  have hz := R.min_nonpos; have hm := R.max_ge
  have e := ITy.min_eq R
  have hb1 := hb.1; have hb2 := hb.2
  have up : ∀ x : Int, x.tmod b ≤ b - 1 := fun x => by have := Int.tmod_lt_of_pos x h0; omega
  have big : ∃ k : Int, 0 ≤ k ∧ R.max + 1 < b * k := ⟨R.max + 2, by omega, by nlinarith⟩
  obtain ⟨k, hk0, hk⟩ := big
  have ex : (b * k + (b - 1)).tmod b = b - 1 := by
    rw [Int.tmod_eq_emod_of_nonneg (by omega), Int.add_comm, Int.add_mul_emod_self_left,
      Int.emod_eq_of_lt (by omega) (by omega)]
  refine ⟨⟨?_, fun x _ => up x, _, ?_, ex⟩, fun hs => ⟨?_, fun x _ => ?_, -(b * k + (b - 1)), ?_, ?_⟩⟩
  · unfold crMod; rw [prodFlag_gt hb h0]
    show subtract R make b 1 = _
    rw [subtract_eq hb R.in_one, if_neg (by omega), if_neg (by omega)]
  · omega
  · unfold crMod; rw [prodFlag_gt hb h0]
    show subtract R make 1 b = _
    rw [hs, if_pos rfl] at e
    rw [subtract_eq R.in_one hb, if_neg (by omega), if_neg (by omega)]
  · have := up (-x); rw [Int.neg_tmod] at this; omega
  · rw [hs, if_pos rfl] at e; omega
  · rw [Int.neg_tmod, ex]; omega

example : @crMod lp64 i8 (.err .negative_overflow_error) (.ok 10) = .ret (.ok (-9)) := by decide

omit [Arch] in
/-- C63 fails: 130 % 5 = 0 is reported as exactly 4; with a negative divisor the reported remainder is not even a bound:
128 % -5 = 3 is reported as -6 and -129 % -5 = -4 as 6; -128 % 128 = 0 is reported as -128. -/
theorem C63_refuted :
    (@crMod lp64 i8 (.err .positive_overflow_error) (.ok 5) = .ret (.ok 4) ∧
      Describes i8 (.err .positive_overflow_error) 130 ∧ ¬ Describes i8 (.ok 4) ((130 : Int).tmod 5)) ∧
    (@crMod lp64 i8 (.err .positive_overflow_error) (.ok (-5)) = .ret (.ok (-6)) ∧
      Describes i8 (.err .positive_overflow_error) 128 ∧ (128 : Int).tmod (-5) = 3) ∧
    (@crMod lp64 i8 (.err .negative_overflow_error) (.ok (-5)) = .ret (.ok 6) ∧
      Describes i8 (.err .negative_overflow_error) (-129) ∧ (-129 : Int).tmod (-5) = -4) ∧
    (@crMod lp64 i8 (.ok (-128)) (.err .positive_overflow_error) = .ret (.ok (-128)) ∧
      Describes i8 (.err .positive_overflow_error) 128 ∧ (-128 : Int).tmod 128 = 0) := by decide

/-! ### C64 bitwise operators -/

/-- C64: on two ordinary values the result is the value of the type with the right bits. -/
theorem C64_values (R : ITy) (hR : R.Ok) (a b : Int) (ha : R.In a) (hb : R.In b) :
    (∃ v, crOr R (.ok a) (.ok b) = .ret (.ok v) ∧ R.In v ∧ ∀ i, bit v i = (bit a i || bit b i)) ∧
    (∃ v, crAnd R (.ok a) (.ok b) = .ret (.ok v) ∧ R.In v ∧ ∀ i, bit v i = (bit a i && bit b i)) ∧
    (∃ v, crXor R (.ok a) (.ok b) = .ret (.ok v) ∧ R.In v ∧ ∀ i, bit v i = (bit a i ^^ bit b i)) :=
  let h := C10_bitwise R hR a b ha hb
  ⟨h.1, h.2.1, h.2.2.1⟩

example : @crXor lp64 i8 (.ok (-1)) (.ok 5) = .ret (.ok (-6)) := by decide

/-- C64: if either operand is an error of any kind, the result is `range_error`: no value is claimed and no union member is
read. -/
theorem C64_errors (R : ITy) (t u : CR) (ht : Proper R t) (hu : Proper R u) (h : ∃ e, t = .err e ∨ u = .err e) :
    crOr R t u = .ret (.err .range_error) ∧ crAnd R t u = .ret (.err .range_error) ∧
    crXor R t u = .ret (.err .range_error) := by
  have : (t.exception || u.exception) = true := by
    obtain ⟨e, rfl | rfl⟩ := h
    · have he : e ≠ .success := ht
      cases e <;> first | rfl | exact absurd rfl he
    · have he : e ≠ .success := hu
      rw [Bool.or_eq_true]; right
      cases e <;> first | rfl | exact absurd rfl he
  unfold crOr crAnd crXor
  rw [if_pos this, if_pos this, if_pos this]
  exact ⟨rfl, rfl, rfl⟩

example : @crOr lp64 i8 (.ok 5) (.err .positive_overflow_error) = .ret (.err .range_error) := by decide

/-! ### C65 quotients and overflow markers -/

/-- C65: a quotient that is reported as an overflow has the sign of that overflow (or is zero), whatever the
operands. -/
theorem C65_sign (R : ITy) (t u : CR) (x y : Int) (ht : Describes R t x) (hu : Describes R u y) (h0 : y ≠ 0) :
    ∃ c, crDiv R t u = .ret c ∧ (c = .err .positive_overflow_error → 0 ≤ x.tdiv y) ∧
      (c = .err .negative_overflow_error → x.tdiv y ≤ 0) := by
  have hz := R.min_nonpos; have hm := R.max_ge
  have np : ∀ {p q : Int}, p ≤ 0 → 0 ≤ q → p.tdiv q ≤ 0 := fun {p q} h1 h2 => by
    have := Int.tdiv_nonneg (a := -p) (b := q) (by omega) h2
    rw [Int.neg_tdiv] at this; omega
  have pn : ∀ {p q : Int}, 0 ≤ p → q ≤ 0 → p.tdiv q ≤ 0 := fun {p q} h1 h2 => by
    have := Int.tdiv_nonneg (a := p) (b := -q) h1 (by omega)
    rw [Int.tdiv_neg] at this; omega
  have nn : ∀ {p q : Int}, p ≤ 0 → q ≤ 0 → 0 ≤ p.tdiv q := fun {p q} h1 h2 =>
    Int.tdiv_nonneg_of_nonpos_of_nonpos h1 h2
  rcases t.cases4 with ⟨a, rfl⟩ | rfl | rfl | hv
  · obtain ⟨ha, rfl⟩ := ht
    rcases u.cases4 with ⟨b, rfl⟩ | rfl | rfl | hv
    · obtain ⟨hb, rfl⟩ := hu
      refine ⟨_, crDiv_ok ha hb h0, ?_⟩
      split_ifs with h
      · exact ⟨fun _ => by omega, nofun⟩
      · exact ⟨nofun, nofun⟩
    · exact ⟨_, (crDiv_ok_marker ha).1, nofun, nofun⟩
    · exact ⟨_, (crDiv_ok_marker ha).2, nofun, nofun⟩
    · exact ⟨_, crDiv_vague (Or.inr hv), nofun, nofun⟩
  · have hx : x < R.min := ht
    rcases u.cases4 with ⟨b, rfl⟩ | rfl | rfl | hv
    · obtain ⟨hb, rfl⟩ := hu
      refine ⟨_, crDiv_neg_ok hb h0, ?_⟩
      split_ifs with h
      · exact ⟨fun _ => nn (by omega) (by omega), nofun⟩
      · exact ⟨nofun, fun _ => np (by omega) (by omega)⟩
    · exact ⟨_, rfl, nofun, nofun⟩
    · have hy : R.max < y := hu
      exact ⟨_, rfl, nofun, fun _ => np (by omega) (by omega)⟩
    · exact ⟨_, crDiv_vague (Or.inr hv), nofun, nofun⟩
  · have hx : R.max < x := ht
    rcases u.cases4 with ⟨b, rfl⟩ | rfl | rfl | hv
    · obtain ⟨hb, rfl⟩ := hu
      refine ⟨_, crDiv_pos_ok hb h0, ?_⟩
      split_ifs with h
      · exact ⟨nofun, fun _ => pn (by omega) (by omega)⟩
      · exact ⟨fun _ => Int.tdiv_nonneg (by omega) (by omega), nofun⟩
    · have hy : y < R.min := hu
      exact ⟨_, rfl, nofun, fun _ => pn (by omega) (by omega)⟩
    · exact ⟨_, rfl, nofun, nofun⟩
    · exact ⟨_, crDiv_vague (Or.inr hv), nofun, nofun⟩
  · exact ⟨_, crDiv_vague (Or.inl hv), nofun, nofun⟩

example : @crDiv lp64 i8 (.err .positive_overflow_error) (.ok (-3)) = .ret (.err .negative_overflow_error) := by decide

/-- C65: the exact outcome of dividing an overflow marker by an ordinary value: the marker on the side of the sign. -/
theorem C65_markers (R : ITy) (b : Int) (hb : R.In b) (h0 : b ≠ 0) :
    crDiv R (.err .positive_overflow_error) (.ok b) =
      .ret (.err (if b < 0 then .negative_overflow_error else .positive_overflow_error)) ∧
    crDiv R (.err .negative_overflow_error) (.ok b) =
      .ret (.err (if b < 0 then .positive_overflow_error else .negative_overflow_error)) :=
  ⟨crDiv_pos_ok hb h0, crDiv_neg_ok hb h0⟩

/-- C65: division by zero gives the overflow marker with the sign of the dividend, and `range_error` for zero. -/
theorem C65_zero (R : ITy) (a : Int) (ha : R.In a) :
    crDiv R (.ok a) (.ok 0) = .ret (.err (if a < 0 then .negative_overflow_error
      else if 0 < a then .positive_overflow_error else .range_error)) ∧
    crDiv R (.err .positive_overflow_error) (.ok 0) = .ret (.err .positive_overflow_error) ∧
    crDiv R (.err .negative_overflow_error) (.ok 0) = .ret (.err .negative_overflow_error) := by
  unfold crDiv
  rw [prodFlag_zero, prodFlag_ok ha]
  refine ⟨?_, rfl, rfl⟩
  split_ifs <;> rfl

omit [Arch] in
/-- The marker is a bound, not a description: `128 / 2 = 64` is reported as being above 127. -/
theorem C65_bound_only : @crDiv lp64 i8 (.err .positive_overflow_error) (.ok 2) = .ret (.err .positive_overflow_error) ∧
    Describes i8 (.err .positive_overflow_error) 128 ∧
    ¬ Describes i8 (.err .positive_overflow_error) ((128 : Int).tdiv 2) := by decide

end
end Verif.Props
