import Verif.Spec
import Verif.Proofs.Cpp

namespace Verif
open Spec

theorem split_pow {i w : Nat} (h : i < w) : (2 : Int) ^ w = 2 * 2 ^ (w - i - 1) * 2 ^ i := by
  have : w = (w - i - 1) + 1 + i := by omega
  conv_lhs => rw [this, Int.pow_add, two_pow_succ']

theorem bit_add_mul {x q : Int} {i w : Nat} (h : i < w) : bit (x + q * 2 ^ w) i = bit x i := by
  have hp := two_pow_pos i
  unfold bit
  have e : x + q * 2 ^ w = x + (2 * (q * 2 ^ (w - i - 1))) * 2 ^ i := by rw [split_pow h]; ring
  rw [e, Int.add_mul_ediv_right _ _ (by omega)]
  exact decide_eq_decide.mpr (by omega)

theorem bit_congr {x y : Int} {i w : Nat} (h : i < w) (hxy : ∃ q, x = y + q * 2 ^ w) :
    bit x i = bit y i := by
  obtain ⟨q, rfl⟩ := hxy
  exact bit_add_mul h

theorem conv_congr (T : ITy) (x : Int) : ∃ q, conv T x = x + q * 2 ^ T.bits := by
  unfold conv
  split
  · rw [Int.bmod_def]
    split
    · refine ⟨- (x / ((2 ^ T.bits : Nat) : Int)), ?_⟩
      have := Int.emod_add_mul_ediv x ((2 ^ T.bits : Nat) : Int)
      push_cast at *; linarith
    · refine ⟨- (x / ((2 ^ T.bits : Nat) : Int)) - 1, ?_⟩
      have := Int.emod_add_mul_ediv x ((2 ^ T.bits : Nat) : Int)
      push_cast at *; linarith
  · refine ⟨- (x / (2 ^ T.bits)), ?_⟩
    have := Int.emod_add_mul_ediv x (2 ^ T.bits)
    push_cast at *; linarith

theorem bit_nonneg_high {x : Int} {d i : Nat} (h0 : 0 ≤ x) (h : x < 2 ^ d) (hi : d ≤ i) : bit x i = false := by
  have := two_pow_le hi
  unfold bit
  rw [Int.ediv_eq_zero_of_lt h0 (by omega)]; decide

theorem bit_neg_high {x : Int} {d i : Nat} (h0 : x < 0) (h : - 2 ^ d ≤ x) (hi : d ≤ i) : bit x i = true := by
  have h1 := two_pow_le hi
  have hp := two_pow_pos i
  unfold bit
  have : x / 2 ^ i = -1 := by
    have h2 : x / 2 ^ i < 0 := Int.ediv_neg_of_neg_of_pos h0 hp
    have h3 : -1 ≤ x / 2 ^ i := (Int.le_ediv_iff_mul_le hp).mpr (by omega)
    omega
  rw [this]; decide

theorem bit_high {T : ITy} {x : Int} (h : T.In x) {i : Nat} (hi : T.digits ≤ i) :
    bit x i = (T.signed && decide (x < 0)) := by
  obtain ⟨h1, h2⟩ := h
  unfold ITy.max at h2
  by_cases hx : x < 0
  · rcases hs : T.signed with _ | _
    · rw [ITy.min_unsigned hs] at h1; omega
    · rw [ITy.min_signed hs] at h1
      rw [bit_neg_high hx h1 hi]; simp [hx]
  · rw [bit_nonneg_high (by omega) (by omega) hi]; simp [hx]

theorem bit_conv (T : ITy) (x : Int) (i : Nat) :
    bit (conv T x) i = if i < T.bits then bit x i else (T.signed && bit x (T.bits - 1)) := by
  have hb := T.bits_pos
  split
  · rename_i h; exact bit_congr h (conv_congr T x)
  · rename_i h
    rcases hs : T.signed with _ | _
    · rw [bit_high (conv_in T x) (by rw [ITy.digits_unsigned hs]; omega), hs]; simp
    · have hd := ITy.digits_signed hs
      rw [bit_high (conv_in T x) (i := i) (by omega), ← bit_high (conv_in T x) (i := T.bits - 1) (by omega),
        bit_congr (w := T.bits) (by omega) (conv_congr T x)]; simp

theorem bit_in {T : ITy} {x : Int} (h : T.In x) (i : Nat) :
    bit x i = if i < T.bits then bit x i else (T.signed && bit x (T.bits - 1)) := by
  conv_lhs => rw [← conv_of_in h]
  rw [bit_conv]

theorem getLsbD_ofInt (w : Nat) (x : Int) (i : Nat) :
    (BitVec.ofInt w x).getLsbD i = (decide (i < w) && bit x i) := by
  by_cases h : i < w
  · rw [BitVec.getLsbD, Nat.testBit_eq_decide_div_mod_eq, BitVec.toNat_ofInt]
    have h0 : 0 ≤ x % ((2 ^ w : Nat) : Int) := Int.emod_nonneg _ (by have := two_pow_pos w; push_cast; omega)
    have hq : ∃ q, x % ((2 ^ w : Nat) : Int) = x + q * 2 ^ w := ⟨- (x / ((2 ^ w : Nat) : Int)), by
      have := Int.emod_add_mul_ediv x ((2 ^ w : Nat) : Int)
      push_cast at *; linarith⟩
    rw [← bit_congr h hq]
    simp only [h, decide_true, Bool.true_and]
    unfold bit
    generalize x % ((2 ^ w : Nat) : Int) = y at h0
    obtain ⟨n, rfl⟩ := Int.eq_ofNat_of_zero_le h0
    apply decide_eq_decide.mpr
    norm_cast
  · rw [BitVec.getLsbD_of_ge _ _ (by omega)]; simp [h]

theorem bit_natCast (n i : Nat) : bit (n : Int) i = n.testBit i := by
  rw [Nat.testBit_eq_decide_div_mod_eq]
  unfold bit
  apply decide_eq_decide.mpr
  norm_cast

theorem bit_ofBits {T : ITy} (b : BitVec T.bits) {i : Nat} (h : i < T.bits) :
    bit (ofBits T b) i = b.getLsbD i := by
  unfold ofBits
  split
  · rw [BitVec.toInt_eq_toNat_cond]
    split
    · rw [bit_natCast]; rfl
    · have : ((b.toNat : Int) - ((2 ^ T.bits : Nat) : Int)) = b.toNat + (-1) * 2 ^ T.bits := by push_cast; ring
      rw [this, bit_add_mul h, bit_natCast]; rfl
  · rw [bit_natCast]; rfl

theorem ofBits_ofInt (T : ITy) (x : Int) : ofBits T (BitVec.ofInt _ x) = conv T x := by
  unfold ofBits conv
  split
  · rw [BitVec.toInt_ofInt]
  · rw [BitVec.toNat_ofInt, Int.toNat_of_nonneg (Int.emod_nonneg _ (by have := two_pow_pos T.bits; push_cast; omega))]
    push_cast; rfl

/-- integers are determined by their bits -/
theorem bit_ext {x y : Int} (h : ∀ i, bit x i = bit y i) : x = y := by
  -- both fit some signed type
  obtain ⟨n, hx, hy⟩ : ∃ n : Nat, x.natAbs < 2 ^ n ∧ y.natAbs < 2 ^ n := by
    refine ⟨x.natAbs + y.natAbs, ?_, ?_⟩
    · exact Nat.lt_of_le_of_lt (Nat.le_add_right _ _) Nat.lt_two_pow_self
    · exact Nat.lt_of_le_of_lt (Nat.le_add_left _ _) Nat.lt_two_pow_self
  have hx' : (BitVec.ofInt (n+1) x).toInt = x := by
    apply BitVec.toInt_ofInt_eq_self (by omega)
    · have : ((x.natAbs : Nat) : Int) < 2 ^ n := by exact_mod_cast hx
      simp; omega
    · have : ((x.natAbs : Nat) : Int) < 2 ^ n := by exact_mod_cast hx
      simp; omega
  have hy' : (BitVec.ofInt (n+1) y).toInt = y := by
    apply BitVec.toInt_ofInt_eq_self (by omega)
    · have : ((y.natAbs : Nat) : Int) < 2 ^ n := by exact_mod_cast hy
      simp; omega
    · have : ((y.natAbs : Nat) : Int) < 2 ^ n := by exact_mod_cast hy
      simp; omega
  have e : BitVec.ofInt (n+1) x = BitVec.ofInt (n+1) y := by
    apply BitVec.eq_of_getLsbD_eq
    intro i hi
    rw [getLsbD_ofInt, getLsbD_ofInt, h]
  rw [← hx', ← hy', e]

section
variable [Arch]

theorem cNot_eq {T : ITy} {t : Int} (h : T.In t) : cNot T t = conv (promote T) (-t - 1) := by
  unfold cNot
  rw [conv_of_in (in_promote h), ← ofBits_ofInt, BitVec.not_eq_neg_add]
  congr 1
  rw [Int.sub_eq_add_neg, BitVec.ofInt_add, BitVec.ofInt_neg, BitVec.ofInt_neg, BitVec.sub_eq_add_neg]
  rfl

theorem cNot_signed {T : ITy} (hs : T.signed = true) {t : Int} (h : T.In t) : cNot T t = -t - 1 := by
  rw [cNot_eq h, conv_of_in]
  apply in_promote
  have := h.1; have := h.2
  have e := ITy.min_eq T
  rw [hs, if_pos rfl] at e
  exact ⟨by omega, by omega⟩

theorem bit_cNot {T : ITy} {t : Int} (_h : T.In t) {i : Nat} (hi : i < T.bits) :
    bit (cNot T t) i = !bit t i := by
  have hi' : i < (promote T).bits := Nat.lt_of_lt_of_le hi (ITy.bits_le (promote_lg T))
  unfold cNot
  rw [bit_ofBits _ hi', BitVec.getLsbD_not, getLsbD_ofInt, bit_congr hi' (conv_congr _ _)]
  simp [hi']

theorem bit_cOr {T : ITy} {t u : Int} {i : Nat} (hi : i < T.bits) :
    bit (cOr T T t u) i = (bit t i || bit u i) := by
  have hi' : i < (uac T T).bits := Nat.lt_of_lt_of_le hi (ITy.bits_le (uac_lg_left T T))
  unfold cOr
  rw [bit_ofBits _ hi', BitVec.getLsbD_or, getLsbD_ofInt, getLsbD_ofInt, bit_congr hi' (conv_congr _ t),
    bit_congr hi' (conv_congr _ u)]
  simp [hi']

theorem bit_cAnd {T : ITy} {t u : Int} {i : Nat} (hi : i < T.bits) :
    bit (cAnd T T t u) i = (bit t i && bit u i) := by
  have hi' : i < (uac T T).bits := Nat.lt_of_lt_of_le hi (ITy.bits_le (uac_lg_left T T))
  unfold cAnd
  rw [bit_ofBits _ hi', BitVec.getLsbD_and, getLsbD_ofInt, getLsbD_ofInt, bit_congr hi' (conv_congr _ t),
    bit_congr hi' (conv_congr _ u)]
  simp [hi']

theorem bit_cXor {T : ITy} {t u : Int} {i : Nat} (hi : i < T.bits) :
    bit (cXor T T t u) i = (bit t i ^^ bit u i) := by
  have hi' : i < (uac T T).bits := Nat.lt_of_lt_of_le hi (ITy.bits_le (uac_lg_left T T))
  unfold cXor
  rw [bit_ofBits _ hi', BitVec.getLsbD_xor, getLsbD_ofInt, getLsbD_ofInt, bit_congr hi' (conv_congr _ t),
    bit_congr hi' (conv_congr _ u)]
  simp [hi']

theorem bit_conv_cOr {T : ITy} {t u : Int} (ht : T.In t) (hu : T.In u) (i : Nat) :
    bit (conv T (cOr T T t u)) i = (bit t i || bit u i) := by
  have hb := T.bits_pos
  rw [bit_conv, bit_in ht, bit_in hu, bit_cOr (i := T.bits - 1) (by omega)]
  split
  · rename_i h; rw [bit_cOr h]
  · cases T.signed <;> simp

theorem bit_conv_cAnd {T : ITy} {t u : Int} (ht : T.In t) (hu : T.In u) (i : Nat) :
    bit (conv T (cAnd T T t u)) i = (bit t i && bit u i) := by
  have hb := T.bits_pos
  rw [bit_conv, bit_in ht, bit_in hu, bit_cAnd (i := T.bits - 1) (by omega)]
  split
  · rename_i h; rw [bit_cAnd h]
  · cases T.signed <;> simp

theorem bit_conv_cXor {T : ITy} {t u : Int} (ht : T.In t) (hu : T.In u) (i : Nat) :
    bit (conv T (cXor T T t u)) i = (bit t i ^^ bit u i) := by
  have hb := T.bits_pos
  rw [bit_conv, bit_in ht, bit_in hu, bit_cXor (i := T.bits - 1) (by omega)]
  split
  · rename_i h; rw [bit_cXor h]
  · cases T.signed <;> simp

end
end Verif
