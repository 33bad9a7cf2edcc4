import Verif.Safe
import Verif.Proofs.Checked
import Verif.Spec

/-!
Property C61: the checked operations report an error exactly once, with a definite code, through whatever handler they are
given (`make` of the free functions, `dispatch_and_return` of a policy, or a user's own), and otherwise return the exact
value. `F` of `checked_operation<R, F>` is the handler `h`.
-/

namespace Verif.Spec

/-- the report or the value, through the handler `h` -/
def report (h : Handler) (e : Option Err) (v : Int) : Out CR :=
  match e with
  | some e => h e
  | none => .ret (.ok v)

/-- the code of a sum, difference or product `v` -/
def rangeCode (R : ITy) (v : Int) : Option Err :=
  if R.max < v then some .positive_overflow_error else if v < R.min then some .negative_overflow_error else none

/-- the code of a conversion of `t` from `T` to `R` with the bounds `mn` and `mx` -/
def castCode (R T : ITy) (mn mx t : Int) : Option Err :=
  if mx < t then some .positive_overflow_error
  else if t < mn then
    some (if T.signed = false then .positive_overflow_error else if R.signed then .negative_overflow_error else .domain_error)
  else none

/-- the code of a quotient -/
def divCode (R : ITy) (t u : Int) : Option Err :=
  if u = 0 then some .domain_error else if R.max < t.tdiv u then some .positive_overflow_error else none

/-- the code of `t << u`; zero is treated like one: `0 << digits` is reported as too large -/
def shlCode (R : ITy) (t u : Int) : Option Err :=
  if u < 0 then some .negative_shift
  else if u = 0 then none
  else if (R.digits : Int) < u then some .shift_too_large
  else if t < 0 then some .negative_shift
  else if R.max < (if t = 0 then 1 else t) * 2 ^ u.toNat then some .shift_too_large
  else none

/-- the code of `t >> u` -/
def shrCode (R : ITy) (t u : Int) : Option Err :=
  if u < 0 then some .negative_shift
  else if (R.digits : Int) < u then some .shift_too_large
  else if t < 0 then some .negative_value_shift
  else none

end Verif.Spec

namespace Verif.Props
open Spec
section
variable [Arch]

/-- Sum, difference, product and negation, every integer type, every handler. -/
theorem C61_arith (R : ITy) (hR : R.Ok) (h : Handler) (t u : Int) (ht : R.In t) (hu : R.In u) :
    add R h t u = report h (rangeCode R (t + u)) (t + u) ∧
    subtract R h t u = report h (rangeCode R (t - u)) (t - u) ∧
    multiply R h t u = report h (rangeCode R (t * u)) (t * u) ∧
    minus R h t = report h (rangeCode R (-t)) (-t) := by
  have key : ∀ v, report h (rangeCode R v) v = if R.max < v then h .positive_overflow_error
      else if v < R.min then h .negative_overflow_error else .ret (.ok v) := by
    intro v; unfold rangeCode; split_ifs <;> rfl
  simp only [key]
  exact ⟨add_eq ht hu, subtract_eq ht hu, multiply_eq hR ht hu, minus_eq ht⟩

/-- Quotient; remainder except `MIN % MIN`. -/
theorem C61_div (R : ITy) (h : Handler) (t u : Int) (ht : R.In t) (hu : R.In u) :
    divide R h t u = report h (divCode R t u) (t.tdiv u) ∧
    (¬ (R.signed = true ∧ t = R.min ∧ u = R.min) →
      modulus R h t u = report h (if u = 0 then some .domain_error else none) (t.tmod u)) := by
  constructor
  · rw [divide_eq ht hu]; unfold divCode; split_ifs <;> rfl
  · intro hn
    rw [modulus_eq ht hu, if_neg hn]; split_ifs <;> rfl

/-- Conversion to `R` with bounds: the code tells on which side the value is (from unsigned types: `positive_overflow_error`
also below the minimum, C01). -/
theorem C61_cast (R T : ITy) (mn mx : Int) (hmn : R.In mn) (hmx : R.In mx) (hle : mn ≤ mx) (h : Handler) (t : Int) (ht : T.In t) :
    cast R mn mx T h t = report h (castCode R T mn mx t) t := by
  rw [cast_eq ht hmn hmx]
  unfold castCode
  rcases hR : R.signed with _ | _ <;> rcases hT : T.signed with _ | _ <;> simp <;> split_ifs <;>
    first | rfl | omega

/-- Left shift. -/
theorem C61_shl (R : ITy) (hR : R.Ok) (h : Handler) (t u : Int) (ht : R.In t) (hu : R.In u) :
    leftShift R h t u = report h (shlCode R t u) (t * 2 ^ u.toNat) := by
  rw [leftShift_eq hR ht hu]
  unfold shlCode
  by_cases h1 : u = 0
  · subst h1; simp [report]
  rw [if_neg h1]
  by_cases h2 : u < 0
  · rw [if_pos h2, if_pos h2]; rfl
  rw [if_neg h2, if_neg h2, if_neg h1]
  by_cases h3 : (R.digits : Int) < u
  · rw [if_pos h3, if_pos h3]; rfl
  rw [if_neg h3, if_neg h3]
  by_cases h4 : t < 0
  · rw [if_pos h4, if_pos h4]; rfl
  rw [if_neg h4, if_neg h4]
  by_cases h0 : t = 0
  · subst h0
    rw [if_pos rfl, show sbits 0 = 1 from by decide, Int.one_mul]
    by_cases h5 : (R.digits : Int) - (1 : Nat) < u
    · have h6 := two_pow_le (show R.digits ≤ u.toNat by omega)
      rw [if_pos h5, if_pos (by unfold ITy.max; omega)]; rfl
    · have h6 := two_pow_lt (show u.toNat < R.digits by omega)
      rw [if_neg h5, if_neg (by unfold ITy.max; omega)]; rfl
  rw [if_neg h0]
  by_cases h5 : (R.digits : Int) - sbits t < u
  · have h6 := shl_overflows (d := R.digits) (show 0 < t by omega) (by omega) h5
    rw [if_pos h5, if_pos (by unfold ITy.max; omega)]; rfl
  · have h6 := shl_fits (d := R.digits) (show 0 ≤ t by omega) (show 0 ≤ u by omega) (by omega)
    rw [if_neg h5, if_neg (by unfold ITy.max; omega)]; rfl

/-- Right shift, except the undefined case of C09. -/
theorem C61_shr_partial (R : ITy) (hR : R.Ok) (h : Handler) (t u : Int) (ht : R.In t) (hu : R.In u)
    (hne : ¬ (R.signed = false ∧ Arch.intLg ≤ R.lg ∧ u = R.bits)) :
    rightShift R h t u = report h (shrCode R t u) (t / 2 ^ u.toNat) := by
  rw [rightShift_eq hR ht hu, if_neg hne]
  unfold shrCode
  split_ifs <;> rfl

/-- Bitwise operations never use the handler. -/
theorem C61_bitwise (R : ITy) (hR : R.Ok) (h h' : Handler) (t u : Int) (ht : R.In t) (hu : R.In u) :
    bitwiseOr R h t u = bitwiseOr R h' t u ∧ bitwiseAnd R h t u = bitwiseAnd R h' t u ∧
    bitwiseXor R h t u = bitwiseXor R h' t u ∧ bitwiseNot R h t = bitwiseNot R h' t := by
  refine ⟨?_, ?_, ?_, ?_⟩
  · rw [bitwiseOr_eq hR ht hu, bitwiseOr_eq hR ht hu]
  · rw [bitwiseAnd_eq hR ht hu, bitwiseAnd_eq hR ht hu]
  · rw [bitwiseXor_eq hR ht hu, bitwiseXor_eq hR ht hu]
  · rw [bitwiseNot_eq hR ht, bitwiseNot_eq hR ht]

/-- The codes the compiler has to provide a handler for (`castErrs`; with a trap policy each of them is a rejection) are exactly those
that the conversion from `T` to a range of `R` reports for some value and some range. -/
theorem C61_cast_listed (R T : ITy) (e : Err) :
    e ∈ castErrs R T ↔ ∃ mn mx t, R.In mn ∧ R.In mx ∧ mn ≤ mx ∧ T.In t ∧ cast R mn mx T .thrown t = .thrown e := by
  have hR1 := R.max_ge
  have hT1 := T.max_ge
  have hR0 : R.min ≤ 0 := ITy.min_nonpos R
  have hT0 : T.min ≤ 0 := ITy.min_nonpos T
  have hRs : R.signed = true → R.min ≤ -1 := fun h => by have := R.min_eq; rw [if_pos h] at this; omega
  have hTs : T.signed = true → T.min ≤ -1 := fun h => by have := T.min_eq; rw [if_pos h] at this; omega
  have wit : ∀ mn mx t e, R.In mn → R.In mx → mn ≤ mx → T.In t → castCode R T mn mx t = some e →
      ∃ mn mx t, R.In mn ∧ R.In mx ∧ mn ≤ mx ∧ T.In t ∧ cast R mn mx T .thrown t = .thrown e := by
    intro mn mx t e a b c d h
    exact ⟨mn, mx, t, a, b, c, d, by rw [C61_cast R T mn mx a b c .thrown t d, h]; rfl⟩
  have pos : ∃ mn mx t, R.In mn ∧ R.In mx ∧ mn ≤ mx ∧ T.In t ∧ cast R mn mx T .thrown t = .thrown .positive_overflow_error :=
    wit 0 0 1 _ ⟨hR0, by omega⟩ ⟨hR0, by omega⟩ (by omega) ⟨by omega, by omega⟩ (by simp [castCode])
  constructor
  · intro h
    unfold castErrs at h
    rcases hs : R.signed with _ | _ <;> rcases ht : T.signed with _ | _ <;> rw [hs, ht] at h <;>
      simp only [List.mem_cons, List.not_mem_nil, or_false] at h
    · exact h ▸ pos
    · rcases h with h | h
      · exact wit 0 0 (-1) _ ⟨hR0, by omega⟩ ⟨hR0, by omega⟩ (by omega) ⟨hTs ht, by omega⟩ (by simp [castCode, hs, ht, h])
      · exact h ▸ pos
    · exact h ▸ pos
    · rcases h with h | h
      · exact h ▸ pos
      · exact wit 0 0 (-1) _ ⟨hR0, by omega⟩ ⟨hR0, by omega⟩ (by omega) ⟨hTs ht, by omega⟩ (by simp [castCode, hs, ht, h])
  · rintro ⟨mn, mx, t, a, b, c, d, h⟩
    rw [C61_cast R T mn mx a b c .thrown t d] at h
    unfold castCode at h
    unfold castErrs
    rcases hs : R.signed with _ | _ <;> rcases ht : T.signed with _ | _ <;> simp only [hs, ht] at h ⊢ <;>
      split_ifs at h <;> simp [report] at h <;> simp [← h]

/-- The same for the operators: the codes listed are exactly those reported for some type and some operands. -/
theorem C61_listed (e : Err) :
    (e ∈ opAdd.errs ↔ ∃ R t u, R.Ok ∧ R.In t ∧ R.In u ∧ opAdd.chk R .thrown t u = .thrown e) ∧
    (e ∈ opSub.errs ↔ ∃ R t u, R.Ok ∧ R.In t ∧ R.In u ∧ opSub.chk R .thrown t u = .thrown e) ∧
    (e ∈ opMul.errs ↔ ∃ R t u, R.Ok ∧ R.In t ∧ R.In u ∧ opMul.chk R .thrown t u = .thrown e) ∧
    (e ∈ opShl.errs ↔ ∃ R t u, R.Ok ∧ R.In t ∧ R.In u ∧ opShl.chk R .thrown t u = .thrown e) ∧
    (e ∈ opShr.errs ↔ ∃ R t u, R.Ok ∧ R.In t ∧ R.In u ∧ opShr.chk R .thrown t u = .thrown e) := by
  have ok8 : i8.Ok := Nat.zero_le _
  have thr : ∀ (c : Option Err) v, report .thrown c v = .thrown e ↔ c = some e := by
    intro c v; cases c <;> simp [report]
  have rng : ∀ (R : ITy) v, rangeCode R v = some e → e ∈ [Err.positive_overflow_error, Err.negative_overflow_error] := by
    intro R v h; unfold rangeCode at h; split_ifs at h <;> cases h <;> simp
  refine ⟨⟨?_, ?_⟩, ⟨?_, ?_⟩, ⟨?_, ?_⟩, ⟨?_, ?_⟩, ⟨?_, ?_⟩⟩
  · intro h
    have key : ∀ t u, i8.In t → i8.In u → rangeCode i8 (t + u) = some e →
        ∃ R t u, R.Ok ∧ R.In t ∧ R.In u ∧ opAdd.chk R .thrown t u = .thrown e := fun t u ht hu hc =>
      ⟨i8, t, u, ok8, ht, hu, (C61_arith i8 ok8 .thrown t u ht hu).1.trans ((thr _ _).2 hc)⟩
    simp only [opAdd, List.mem_cons, List.not_mem_nil, or_false] at h
    rcases h with rfl | rfl
    · exact key 100 100 (by decide) (by decide) (by decide)
    · exact key (-100) (-100) (by decide) (by decide) (by decide)
  · rintro ⟨R, t, u, hR, ht, hu, h⟩
    exact rng R (t + u) ((thr _ _).1 ((C61_arith R hR .thrown t u ht hu).1.symm.trans h))
  · intro h
    have key : ∀ t u, i8.In t → i8.In u → rangeCode i8 (t - u) = some e →
        ∃ R t u, R.Ok ∧ R.In t ∧ R.In u ∧ opSub.chk R .thrown t u = .thrown e := fun t u ht hu hc =>
      ⟨i8, t, u, ok8, ht, hu, (C61_arith i8 ok8 .thrown t u ht hu).2.1.trans ((thr _ _).2 hc)⟩
    simp only [opSub, List.mem_cons, List.not_mem_nil, or_false] at h
    rcases h with rfl | rfl
    · exact key 100 (-100) (by decide) (by decide) (by decide)
    · exact key (-100) 100 (by decide) (by decide) (by decide)
  · rintro ⟨R, t, u, hR, ht, hu, h⟩
    exact rng R (t - u) ((thr _ _).1 ((C61_arith R hR .thrown t u ht hu).2.1.symm.trans h))
  · intro h
    have key : ∀ t u, i8.In t → i8.In u → rangeCode i8 (t * u) = some e →
        ∃ R t u, R.Ok ∧ R.In t ∧ R.In u ∧ opMul.chk R .thrown t u = .thrown e := fun t u ht hu hc =>
      ⟨i8, t, u, ok8, ht, hu, (C61_arith i8 ok8 .thrown t u ht hu).2.2.1.trans ((thr _ _).2 hc)⟩
    simp only [opMul, List.mem_cons, List.not_mem_nil, or_false] at h
    rcases h with rfl | rfl
    · exact key 100 2 (by decide) (by decide) (by decide)
    · exact key (-100) 2 (by decide) (by decide) (by decide)
  · rintro ⟨R, t, u, hR, ht, hu, h⟩
    exact rng R (t * u) ((thr _ _).1 ((C61_arith R hR .thrown t u ht hu).2.2.1.symm.trans h))
  · intro h
    have key : ∀ t u, i8.In t → i8.In u → shlCode i8 t u = some e →
        ∃ R t u, R.Ok ∧ R.In t ∧ R.In u ∧ opShl.chk R .thrown t u = .thrown e := fun t u ht hu hc =>
      ⟨i8, t, u, ok8, ht, hu, (C61_shl i8 ok8 .thrown t u ht hu).trans ((thr _ _).2 hc)⟩
    simp only [opShl, List.mem_cons, List.not_mem_nil, or_false] at h
    rcases h with rfl | rfl
    · exact key 1 (-1) (by decide) (by decide) (by decide)
    · exact key 1 7 (by decide) (by decide) (by decide)
  · rintro ⟨R, t, u, hR, ht, hu, h⟩
    have hc := (thr _ _).1 ((C61_shl R hR .thrown t u ht hu).symm.trans h)
    unfold shlCode at hc
    split_ifs at hc <;> cases hc <;> simp [opShl]
  · intro h
    have key : ∀ t u, i8.In t → i8.In u → shrCode i8 t u = some e →
        ∃ R t u, R.Ok ∧ R.In t ∧ R.In u ∧ opShr.chk R .thrown t u = .thrown e := fun t u ht hu hc =>
      ⟨i8, t, u, ok8, ht, hu, (C61_shr_partial i8 ok8 .thrown t u ht hu (by rintro ⟨h, _⟩; cases h)).trans ((thr _ _).2 hc)⟩
    simp only [opShr, List.mem_cons, List.not_mem_nil, or_false] at h
    rcases h with rfl | rfl | rfl
    · exact key 1 (-1) (by decide) (by decide) (by decide)
    · exact key 1 8 (by decide) (by decide) (by decide)
    · exact key (-1) 1 (by decide) (by decide) (by decide)
  · rintro ⟨R, t, u, hR, ht, hu, h⟩
    by_cases hx : R.signed = false ∧ Arch.intLg ≤ R.lg ∧ u = R.bits
    · have h' : rightShift R .thrown t u = .thrown e := h
      rw [rightShift_eq hR ht hu, if_pos hx] at h'
      split_ifs at h' <;> cases h' <;> simp [opShr]
    · have hc := (thr _ _).1 ((C61_shr_partial R hR .thrown t u ht hu hx).symm.trans h)
      unfold shrCode at hc
      split_ifs at hc <;> cases hc <;> simp [opShr]

end

section
attribute [local instance] lp64
-- C61_cast_listed: from `int` to a range of `unsigned char` two codes are possible, from `unsigned` to `int` only one
example : cast u8 3 9 i32 .thrown 10 = .thrown .positive_overflow_error ∧ Err.negative_overflow_error ∉ castErrs u8 i32 ∧
    castErrs i32 u32 = [.positive_overflow_error] := by decide +kernel
-- a handler that answers every error with the value 7: it is asked exactly where the exact result does not exist
example : add i8 (fun _ => .ret (.ok 7)) 100 100 = .ret (.ok 7) ∧ add i8 (fun _ => .ret (.ok 7)) 100 27 = .ret (.ok 127) := by
  decide +kernel
example : multiply u16 .thrown 300 300 = .thrown .positive_overflow_error ∧ minus u16 .thrown 1 = .thrown .negative_overflow_error ∧
    divide i32 .thrown (-2147483648) (-1) = .thrown .positive_overflow_error ∧ divide i32 .thrown 1 0 = .thrown .domain_error := by
  decide +kernel
example : leftShift i8 .thrown 1 7 = .thrown .shift_too_large ∧ leftShift i8 .thrown 0 7 = .thrown .shift_too_large ∧
    leftShift i8 .thrown (-1) 1 = .thrown .negative_shift ∧ leftShift i8 .thrown 0 6 = .ret (.ok 0) := by decide +kernel
example : rightShift i8 .thrown (-1) 1 = .thrown .negative_value_shift ∧ rightShift i8 .thrown 1 8 = .thrown .shift_too_large ∧
    rightShift i8 .thrown 1 7 = .ret (.ok 0) := by decide +kernel
example : cast u8 3 9 i16 .thrown (-4) = .thrown .domain_error ∧ cast i8 3 9 i16 .thrown (-4) = .thrown .negative_overflow_error ∧
    cast i8 3 9 u16 .thrown 2 = .thrown .positive_overflow_error := by decide +kernel

/-- The code does not tell on which side of a range a value is: decrementing a `safe_unsigned_range<5, 10>` holding 5 reports a *positive*
overflow if it is stored in an `unsigned int`, a domain error if it is stored in an `unsigned char`, and a negative overflow for the
signed range. -/
theorem C61_decrement_refuted :
    preDec .native strictException (Opd.range u32 5 10) 5 = .thrown .positive_overflow_error ∧
    preDec .native strictException (Opd.range u8 5 10) 5 = .thrown .domain_error ∧
    preDec .native strictException (Opd.range i8 5 10) 5 = .thrown .negative_overflow_error := by decide +kernel
end
end Verif.Props
