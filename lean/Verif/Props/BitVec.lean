import Verif.Proofs.Bits

/-!
C79: the model of the built-in operators (Cpp.lean) against Lean's bit vectors. The C++ operators of the model are defined on
mathematical integers; here they are shown to be the operations of two's complement machine words (`BitVec`), where
`BitVec.ofInt w x` is the word of an operand and `ofBits R` reads a word back as a value of type `R`. The conversions before an
operation are shown to be those of the standard: the type that can hold all values of both operands.
-/

set_option linter.unusedSectionVars false

namespace Verif
section
variable [Arch]

private theorem ofInt_conv (R : ITy) (x : Int) : BitVec.ofInt R.bits (conv R x) = BitVec.ofInt R.bits x := by
  obtain ⟨q, hq⟩ := conv_congr R x
  rw [hq, BitVec.ofInt_add, BitVec.ofInt_mul]
  have : BitVec.ofInt R.bits (2 ^ R.bits) = 0#R.bits := by
    apply BitVec.eq_of_toNat_eq
    rw [BitVec.toNat_ofInt]; simp
  rw [this]; simp

private theorem conv_word_signed {R : ITy} (h : R.signed = true) (x : Int) :
    conv R x = (BitVec.ofInt R.bits x).toInt := by
  rw [← ofBits_ofInt]; unfold ofBits; rw [if_pos h]

private theorem conv_word_unsigned {R : ITy} (h : R.signed = false) (x : Int) :
    conv R x = ((BitVec.ofInt R.bits x).toNat : Int) := by
  rw [← ofBits_ofInt]; unfold ofBits; rw [h, if_neg (by decide)]

private theorem in_signed {R : ITy} (h : R.signed = true) (v : Int) :
    R.In v ↔ ¬ (v ≥ 2 ^ (R.bits - 1) ∨ v < - 2 ^ (R.bits - 1)) := by
  have : R.digits = R.bits - 1 := by have := ITy.digits_signed h; omega
  unfold ITy.In ITy.max; rw [ITy.min_signed h, this]; omega

private theorem cWrap_word (R : ITy) (v : Int) :
    cWrap R v = if R.signed = true ∧ (v ≥ 2 ^ (R.bits - 1) ∨ v < - 2 ^ (R.bits - 1)) then .fault .ub
      else .ret (ofBits R (BitVec.ofInt R.bits v)) := by
  unfold cWrap
  rcases h : R.signed with _ | _
  · simp [ofBits_ofInt]
  · have := in_signed h v
    simp only [if_true, true_and]
    by_cases hv : R.In v
    · rw [if_pos hv, if_neg (this.1 hv), ofBits_ofInt, conv_of_in hv]
    · rw [if_neg hv, if_pos (by by_contra hc; exact hv (this.2 hc))]

private theorem bits_pred (R : ITy) : R.bits - 1 + 1 = R.bits := by have := R.bits_pos; omega

/-- The quotient of two signed words overflows exactly for the least word divided by -1. -/
private theorem tdiv_word {w : Nat} (hw : 2 ≤ w) (a b : BitVec w) (hb : b ≠ 0#w) :
    ((a.toInt.tdiv b.toInt ≥ 2 ^ (w - 1) ∨ a.toInt.tdiv b.toInt < - 2 ^ (w - 1)) ↔ (a = BitVec.intMin w ∧ b = -1#w)) ∧
    BitVec.ofInt w (a.toInt.tdiv b.toInt) = a.sdiv b := by
  refine ⟨⟨fun h => ?_, ?_⟩, ?_⟩
  · by_contra hc
    have e := BitVec.toInt_sdiv_of_ne_or_ne a b (by by_contra h'; apply hc; simp only [ne_eq, not_or, not_not] at h'; exact h')
    rw [← e] at h
    have h1 := BitVec.toInt_lt (x := a.sdiv b)
    have h2 := BitVec.le_toInt (x := a.sdiv b)
    omega
  · rintro ⟨rfl, rfl⟩
    left
    have h1 : (-1#w).toInt = -1 := by
      rw [BitVec.neg_one_eq_allOnes, BitVec.toInt_allOnes, if_pos (by omega)]
    rw [BitVec.toInt_intMin_of_pos (by omega), h1]
    rw [Int.tdiv_neg, Int.tdiv_one]; omega
  · apply BitVec.eq_of_toInt_eq
    rw [BitVec.toInt_ofInt, BitVec.toInt_sdiv]

/-- All values of `A` are values of `B`. -/
private theorem subset_iff (A B : ITy) : (∀ x, A.In x → B.In x) ↔
    if A.signed = B.signed then A.lg ≤ B.lg else (B.signed = true ∧ A.lg < B.lg) := by
  have hm : (∀ x, A.In x → B.In x) ↔ B.min ≤ A.min ∧ A.max ≤ B.max := by
    constructor
    · intro h
      exact ⟨(h _ A.in_min).1, (h _ A.in_max).2⟩
    · rintro ⟨h1, h2⟩ x ⟨x1, x2⟩
      exact ⟨by omega, by omega⟩
  have hx : A.max ≤ B.max ↔ A.digits ≤ B.digits := by
    refine ⟨fun h => ?_, ITy.max_le_of_digits⟩
    by_contra hc
    have := two_pow_lt (show B.digits < A.digits by omega)
    unfold ITy.max at h; omega
  have hl : A.lg ≤ B.lg → A.bits ≤ B.bits := ITy.bits_le
  have hl1 : A.lg < B.lg → 2 * A.bits ≤ B.bits := ITy.bits_lt
  have hl2 : B.lg < A.lg → 2 * B.bits ≤ A.bits := ITy.bits_lt
  have hl3 : B.lg ≤ A.lg → B.bits ≤ A.bits := ITy.bits_le
  have ha := A.bits_pos
  have hb := B.bits_pos
  have hA := A.max_ge
  have hB := B.max_ge
  rw [hm]
  rcases sa : A.signed with _ | _ <;> rcases sb : B.signed with _ | _
  · have := ITy.digits_unsigned sa; have := ITy.digits_unsigned sb
    rw [ITy.min_unsigned sa, ITy.min_unsigned sb, hx]; simp; omega
  · have := ITy.digits_unsigned sa; have := ITy.digits_signed sb
    have := B.min_nonpos
    rw [ITy.min_unsigned sa, hx]; simp; omega
  · rw [ITy.min_eq A, ITy.min_unsigned sb, sa]; simp; omega
  · have := ITy.digits_signed sa; have := ITy.digits_signed sb
    have e : B.min ≤ A.min ↔ A.max ≤ B.max := by rw [ITy.min_eq A, ITy.min_eq B, sa, sb]; simp
    rw [e, hx]; simp; omega

namespace Props

/-- C79: conversion to an integer type keeps the low bits. -/
theorem C79_conv (T : ITy) (x : Int) : conv T x = ofBits T (BitVec.ofInt T.bits x) := (ofBits_ofInt T x).symm

/-- C79: addition. -/
theorem C79_add (T U : ITy) (t u : Int) :
    let R := uac T U; let a := BitVec.ofInt R.bits t; let b := BitVec.ofInt R.bits u
    cAdd T U t u = if R.signed = true ∧ a.saddOverflow b = true then .fault .ub else .ret (ofBits R (a + b)) := by
  intro R a b
  show cWrap R (conv R t + conv R u) = _
  rw [cWrap_word, BitVec.ofInt_add, ofInt_conv, ofInt_conv]
  refine if_congr (and_congr_right fun h => ?_) rfl rfl
  rw [conv_word_signed h, conv_word_signed h]
  simp [BitVec.saddOverflow, a, b]

/-- C79: subtraction. -/
theorem C79_sub (T U : ITy) (t u : Int) :
    let R := uac T U; let a := BitVec.ofInt R.bits t; let b := BitVec.ofInt R.bits u
    cSub T U t u = if R.signed = true ∧ a.ssubOverflow b = true then .fault .ub else .ret (ofBits R (a - b)) := by
  intro R a b
  show cWrap R (conv R t - conv R u) = _
  rw [cWrap_word, Int.sub_eq_add_neg, BitVec.ofInt_add, BitVec.ofInt_neg, ofInt_conv, ofInt_conv, ← BitVec.sub_eq_add_neg]
  refine if_congr (and_congr_right fun h => ?_) rfl rfl
  rw [conv_word_signed h, conv_word_signed h, ← Int.sub_eq_add_neg]
  simp [BitVec.ssubOverflow, a, b]

/-- C79: multiplication. -/
theorem C79_mul (T U : ITy) (t u : Int) :
    let R := uac T U; let a := BitVec.ofInt R.bits t; let b := BitVec.ofInt R.bits u
    cMul T U t u = if R.signed = true ∧ a.smulOverflow b = true then .fault .ub else .ret (ofBits R (a * b)) := by
  intro R a b
  show cWrap R (conv R t * conv R u) = _
  rw [cWrap_word, BitVec.ofInt_mul, ofInt_conv, ofInt_conv]
  refine if_congr (and_congr_right fun h => ?_) rfl rfl
  rw [conv_word_signed h, conv_word_signed h]
  simp [BitVec.smulOverflow, a, b]

/-- C79: negation. -/
theorem C79_neg (T : ITy) (t : Int) :
    let R := promote T; let a := BitVec.ofInt R.bits t
    cNeg T t = if R.signed = true ∧ a = BitVec.intMin R.bits then .fault .ub else .ret (ofBits R (-a)) := by
  intro R a
  show cWrap R (- conv R t) = _
  rw [cWrap_word, BitVec.ofInt_neg, ofInt_conv]
  refine if_congr (and_congr_right fun h => ?_) rfl rfl
  rw [conv_word_signed h, ← BitVec.toInt_inj, BitVec.toInt_intMin_of_pos (by have := R.bits_pos; omega)]
  have h1 := BitVec.toInt_lt (x := a)
  have h2 := BitVec.le_toInt (x := a)
  show -a.toInt ≥ _ ∨ -a.toInt < _ ↔ a.toInt = _
  omega

/-- C79: the shift operators; `n` is the shift count. -/
theorem C79_shr (T U : ITy) (t u : Int) :
    let R := promote T; let a := BitVec.ofInt R.bits t; let n := conv (promote U) u
    cShr T U t u = if n < 0 ∨ (R.bits : Int) ≤ n then .fault .ub
      else .ret (ofBits R (if R.signed = true then a.sshiftRight n.toNat else a >>> n.toNat)) := by
  intro R a n
  show (if n < 0 ∨ (R.bits : Int) ≤ n then _ else _) = _
  refine if_congr Iff.rfl rfl ?_
  show Out.ret (conv R t / 2 ^ n.toNat) = _
  congr 1
  unfold ofBits
  rcases h : R.signed with _ | _
  · rw [conv_word_unsigned h]
    simp [Nat.shiftRight_eq_div_pow, a]
  · rw [conv_word_signed h, if_pos rfl, if_pos rfl, BitVec.toInt_sshiftRight, Int.shiftRight_eq_div_pow]
    simp [a]

/-- C79: left shift. On signed types it is undefined for negative words and if a bit set is shifted out. -/
theorem C79_shl (T U : ITy) (t u : Int) :
    let R := promote T; let a := BitVec.ofInt R.bits t; let n := conv (promote U) u
    cShl T U t u = if n < 0 ∨ (R.bits : Int) ≤ n then .fault .ub
      else if R.signed = true ∧ (a.msb = true ∨ (a <<< n.toNat) >>> n.toNat ≠ a) then .fault .ub
      else .ret (ofBits R (a <<< n.toNat)) := by
  intro R a n
  show (if n < 0 ∨ (R.bits : Int) ≤ n then _ else _) = _
  refine if_congr Iff.rfl rfl ?_
  have e : ofBits R (a <<< n.toNat) = conv R (conv R t * 2 ^ n.toNat) := by
    rw [← ofBits_ofInt, BitVec.ofInt_mul, ofInt_conv]
    congr 1
    show a <<< n.toNat = a * _
    rw [BitVec.shiftLeft_eq_mul_twoPow]
    congr 1
    apply BitVec.eq_of_toNat_eq
    rw [BitVec.toNat_twoPow, BitVec.toNat_ofInt]
    have : ((2 : Int) ^ n.toNat) = ((2 ^ n.toNat : Nat) : Int) := by norm_cast
    rw [this]; norm_cast
  rw [e]
  show (if R.signed then if conv R t < 0 then _ else if R.toUnsigned.In (conv R t * 2 ^ n.toNat) then _ else _ else _) = _
  rcases h : R.signed with _ | _
  · simp only [Bool.false_eq_true, if_false, false_and]; rfl
  · simp only [if_true, true_and]
    have hm : a.msb = true ↔ conv R t < 0 := by
      rw [conv_word_signed h, BitVec.msb_eq_toInt]; simp [a]
    by_cases h0 : conv R t < 0
    · rw [if_pos h0, if_pos (Or.inl (hm.2 h0))]
    · rw [if_neg h0]
      have hn : conv R t = (a.toNat : Int) := by
        rw [conv_word_signed h]
        show a.toInt = _
        rw [BitVec.toInt_eq_msb_cond, if_neg (fun hc => h0 (hm.1 hc))]
      have hi : R.toUnsigned.In (conv R t * 2 ^ n.toNat) ↔ (a <<< n.toNat) >>> n.toNat = a := by
        rw [hn, ← BitVec.toNat_inj, BitVec.toNat_ushiftRight, BitVec.toNat_shiftLeft, Nat.shiftLeft_eq,
          Nat.shiftRight_eq_div_pow]
        have hb : R.toUnsigned.In ((a.toNat : Int) * 2 ^ n.toNat) ↔ a.toNat * 2 ^ n.toNat < 2 ^ R.bits := by
          have hd : R.toUnsigned.digits = R.bits := by unfold ITy.digits ITy.toUnsigned ITy.bits; rfl
          unfold ITy.In ITy.max
          rw [hd, ITy.min_unsigned (show R.toUnsigned.signed = false from rfl)]
          have hc : (a.toNat : Int) * 2 ^ n.toNat = ((a.toNat * 2 ^ n.toNat : Nat) : Int) := by norm_cast
          have hc' : ((2 : Int) ^ R.bits) = ((2 ^ R.bits : Nat) : Int) := by norm_cast
          rw [hc, hc']; omega
        rw [hb]
        have hp : 0 < 2 ^ n.toNat := Nat.two_pow_pos _
        constructor
        · intro hl
          rw [Nat.mod_eq_of_lt hl, Nat.mul_div_cancel _ hp]
        · intro hq
          have := Nat.div_mul_le_self (a.toNat * 2 ^ n.toNat % 2 ^ R.bits) (2 ^ n.toNat)
          rw [hq] at this
          exact lt_of_le_of_lt this (Nat.mod_lt _ (Nat.two_pow_pos _))
      by_cases hq : (a <<< n.toNat) >>> n.toNat = a
      · rw [if_pos (hi.2 hq), if_neg (by rintro (hc | hc); exact h0 (hm.1 hc); exact hc hq)]
      · rw [if_neg (fun hc => hq (hi.1 hc)), if_pos (Or.inr hq)]

/-- C79: division. -/
theorem C79_div (T U : ITy) (t u : Int) :
    let R := uac T U; let a := BitVec.ofInt R.bits t; let b := BitVec.ofInt R.bits u
    cDiv T U t u = if b = 0#R.bits ∨ (R.signed = true ∧ a = BitVec.intMin R.bits ∧ b = -1#R.bits) then .fault .ub
      else .ret (ofBits R (if R.signed = true then a.sdiv b else a / b)) := by
  intro R a b
  show (if conv R u = 0 then _ else cWrap R ((conv R t).tdiv (conv R u))) = _
  have hz : conv R u = 0 ↔ b = 0#R.bits := by
    rcases h : R.signed with _ | _
    · rw [conv_word_unsigned h, ← BitVec.toNat_inj]; simp [b]
    · rw [conv_word_signed h, ← BitVec.toInt_inj]; simp [b]
  by_cases h0 : b = 0#R.bits
  · rw [if_pos (hz.2 h0), if_pos (Or.inl h0)]
  rw [if_neg (fun h => h0 (hz.1 h)), cWrap_word]
  rcases h : R.signed with _ | _
  · simp only [Bool.false_eq_true, false_and, if_false, h0, or_self]
    rw [conv_word_unsigned h, conv_word_unsigned h, ← Int.ofNat_tdiv]
    congr 2
    apply BitVec.eq_of_toNat_eq
    rw [BitVec.ofInt_natCast, BitVec.toNat_ofNat]
    exact Nat.mod_eq_of_lt (lt_of_le_of_lt (Nat.div_le_self _ _) a.isLt)
  · rw [conv_word_signed h, conv_word_signed h]
    obtain ⟨h1, h2⟩ := tdiv_word (by have := R.bits_pos; omega) a b h0
    rw [show BitVec.ofInt R.bits ((BitVec.ofInt R.bits t).toInt.tdiv (BitVec.ofInt R.bits u).toInt) = _ from h2]
    refine if_congr ?_ rfl (by rw [if_pos rfl])
    rw [show (_ ∨ _) = _ from propext h1]
    simp [h0]

/-- C79: remainder; undefined in the same cases as division. -/
theorem C79_mod (T U : ITy) (t u : Int) :
    let R := uac T U; let a := BitVec.ofInt R.bits t; let b := BitVec.ofInt R.bits u
    cMod T U t u = if b = 0#R.bits ∨ (R.signed = true ∧ a = BitVec.intMin R.bits ∧ b = -1#R.bits) then .fault .ub
      else .ret (ofBits R (if R.signed = true then a.srem b else a % b)) := by
  intro R a b
  show (if conv R u = 0 then _ else if R.signed = true ∧ ¬ R.In ((conv R t).tdiv (conv R u)) then _ else
    Out.ret ((conv R t).tmod (conv R u))) = _
  have hz : conv R u = 0 ↔ b = 0#R.bits := by
    rcases h : R.signed with _ | _
    · rw [conv_word_unsigned h, ← BitVec.toNat_inj]; simp [b]
    · rw [conv_word_signed h, ← BitVec.toInt_inj]; simp [b]
  by_cases h0 : b = 0#R.bits
  · rw [if_pos (hz.2 h0), if_pos (Or.inl h0)]
  rw [if_neg (fun h => h0 (hz.1 h))]
  rcases h : R.signed with _ | _
  · simp only [Bool.false_eq_true, false_and, if_false, h0, or_self]
    unfold ofBits
    rw [conv_word_unsigned h, conv_word_unsigned h, ← Int.ofNat_tmod, h]
    simp [a, b]
  · rw [conv_word_signed h, conv_word_signed h]
    obtain ⟨h1, _⟩ := tdiv_word (by have := R.bits_pos; omega) a b h0
    refine if_congr ?_ rfl ?_
    · rw [in_signed h, not_not, show (_ ∨ _) = _ from propext h1]
      simp [h0]
    · unfold ofBits
      rw [if_pos rfl, if_pos h, BitVec.toInt_srem]

/-- C79: comparisons are signed or unsigned comparisons of words. -/
theorem C79_compare (T U : ITy) (t u : Int) :
    let R := uac T U; let a := BitVec.ofInt R.bits t; let b := BitVec.ofInt R.bits u
    cLt T U t u = (if R.signed = true then a.slt b else a.ult b) ∧
    cLe T U t u = (if R.signed = true then a.sle b else a.ule b) ∧
    cGt T U t u = (if R.signed = true then b.slt a else b.ult a) ∧
    cGe T U t u = (if R.signed = true then b.sle a else b.ule a) ∧
    cEq T U t u = (a == b) ∧ cNe T U t u = (a != b) := by
  intro R a b
  show decide (conv R t < conv R u) = _ ∧ decide (conv R t ≤ conv R u) = _ ∧ decide (conv R u < conv R t) = _ ∧
    decide (conv R u ≤ conv R t) = _ ∧ decide (conv R t = conv R u) = _ ∧ decide (conv R t ≠ conv R u) = _
  have he : conv R t = conv R u ↔ a = b := by
    rcases h : R.signed with _ | _
    · rw [conv_word_unsigned h, conv_word_unsigned h, ← BitVec.toNat_inj]; norm_cast
    · rw [conv_word_signed h, conv_word_signed h, ← BitVec.toInt_inj]
  have e1 : decide (conv R t = conv R u) = (a == b) := by
    rw [Bool.eq_iff_iff]; simp [he]
  have e2 : decide (conv R t ≠ conv R u) = (a != b) := by
    rw [Bool.eq_iff_iff]; simp [he]
  rw [e1, e2]
  rcases h : R.signed with _ | _
  · rw [conv_word_unsigned h, conv_word_unsigned h]
    simp only [Bool.false_eq_true, if_false, BitVec.ult, BitVec.ule, Nat.cast_lt, Nat.cast_le, and_true]
    exact ⟨rfl, rfl, rfl, rfl⟩
  · rw [conv_word_signed h, conv_word_signed h]
    simp [BitVec.slt, BitVec.sle, a, b]

open Classical in
/-- C79: the integral promotion gives `int` if `int` has all values of the type. -/
theorem C79_promote (T : ITy) : promote T = if ∀ x, T.In x → tInt.In x then tInt else T := by
  rw [if_congr (subset_iff T tInt) rfl rfl]
  rcases T with ⟨_ | _, l⟩
  · simp only [promote, tInt]; split_ifs <;> simp_all
  · simp only [promote, tInt]; split_ifs <;> simp_all <;> omega

open Classical in
/-- C79: the usual arithmetic conversions give the promoted type that has all values of the other one; if neither has, the
unsigned type of the larger width. -/
theorem C79_uac (T U : ITy) :
    uac T U = if ∀ x, (promote U).In x → (promote T).In x then promote T
      else if ∀ x, (promote T).In x → (promote U).In x then promote U
      else ⟨false, max (promote T).lg (promote U).lg⟩ := by
  rw [if_congr (subset_iff (promote U) (promote T)) rfl (if_congr (subset_iff (promote T) (promote U)) rfl rfl)]
  unfold uac
  rcases promote T with ⟨_ | _, l⟩ <;> rcases promote U with ⟨_ | _, m⟩ <;> dsimp only <;> split_ifs <;> simp_all <;> omega

end Props
end

/-! ### Non-vacuity -/
section
attribute [local instance] lp64

-- `INT_MAX + 1` overflows, `UINT_MAX + 1` wraps, `-1 < 1u` compares unsigned words
example : (BitVec.ofInt 32 2147483647).saddOverflow (BitVec.ofInt 32 1) = true ∧
    cAdd i32 i32 2147483647 1 = .fault .ub := by decide +kernel
example : cAdd u32 i32 4294967295 1 = .ret 0 ∧ uac u32 i32 = u32 := by decide +kernel
example : cLt i32 u32 (-1) 1 = false ∧ (BitVec.ofInt 32 (-1)).ult (BitVec.ofInt 32 1) = false := by decide +kernel
example : uac u32 i64 = i64 ∧ promote u16 = i32 ∧ promote u32 = u32 := by decide +kernel
example : cDiv i32 i32 (-2147483648) (-1) = .fault .ub ∧ cMod i32 i32 (-7) 2 = .ret (-1) := by decide +kernel
example : cShl i32 i32 1 31 = .ret (-2147483648) ∧ cShl i32 i32 3 31 = .fault .ub ∧ cShr i32 i32 (-5) 1 = .ret (-3) := by
  decide +kernel
end

end Verif
