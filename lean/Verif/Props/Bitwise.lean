import Verif.Props.Program

/-!
Properties C27 (bitwise operators) and C38 (complement).
-/

namespace Verif.Props
open Spec
section
variable [Arch]

omit [Arch] in
private theorem ret_bind {α β : Type} (a : α) (f : α → Out β) : (Out.ret a >>= f) = f a := rfl

/-- the built-in operator -/
private def prim : Bitwise → ITy → ITy → Int → Int → Int
  | .bor => cOr
  | .band => cAnd
  | .bxor => cXor

private theorem bitwise_eq {pp : PP} {o : Bitwise} {T U : Opd} {t u : Int} {R : ITy}
    (hres : pp.result o.binOp T U = .ret R) :
    bitwise pp o T U t u = (bitTy o.pick R T U >>= fun _ => .ret (conv R (prim o R R (conv R t) (conv R u)))) := by
  unfold bitwise; rw [hres, ret_bind]; cases o <;> rfl

private theorem bit_prim (o : Bitwise) {R : ITy} {t u : Int} {i : Nat} (hi : i < R.bits) :
    bit (prim o R R t u) i = logic o (bit t i) (bit u i) := by
  cases o
  · exact bit_cOr hi
  · exact bit_cAnd hi
  · exact bit_cXor hi

private theorem bit_conv_prim (o : Bitwise) {R : ITy} {t u : Int} (ht : R.In t) (hu : R.In u) (i : Nat) :
    bit (conv R (prim o R R t u)) i = logic o (bit t i) (bit u i) := by
  cases o
  · exact bit_conv_cOr ht hu i
  · exact bit_conv_cAnd ht hu i
  · exact bit_conv_cXor ht hu i

private theorem bitwise_ret {pp : PP} {o : Bitwise} {T U : Opd} {t u v : Int} {R : ITy}
    (hres : pp.result o.binOp T U = .ret R) (h : bitwise pp o T U t u = .ret v) :
    v = conv R (prim o R R (conv R t) (conv R u)) := by
  rw [bitwise_eq hres] at h
  rcases hb : bitTy o.pick R T U with S | e | f
  · rw [hb] at h; cases h; rfl
  · rw [hb] at h; cases h
  · rw [hb] at h; cases h

/-! ### C27 -/

/-- A bitwise operation that returns `v`: each bit of `v` within the width of the result type is the combination of the bits
of the operands. -/
theorem C27_bits (pp : PP) (o : Bitwise) (T U : Opd) (t u v : Int) (R : ITy) (hres : pp.result o.binOp T U = .ret R)
    (hv : bitwise pp o T U t u = .ret v) : R.In v ∧ ∀ i < R.bits, bit v i = logic o (bit t i) (bit u i) := by
  obtain rfl := bitwise_ret hres hv
  refine ⟨conv_in _ _, fun i hi => ?_⟩
  rw [bit_conv, if_pos hi, bit_prim o hi, bit_conv, if_pos hi, bit_conv, if_pos hi]

/-- If the result type represents both operands, all bits (of the infinite two's complement) are right. -/
theorem C27_all_bits (pp : PP) (o : Bitwise) (T U : Opd) (t u v : Int) (R : ITy)
    (hres : pp.result o.binOp T U = .ret R) (ht : R.In t) (hu : R.In u)
    (hv : bitwise pp o T U t u = .ret v) : ∀ i, bit v i = logic o (bit t i) (bit u i) := by
  obtain rfl := bitwise_ret hres hv
  rw [conv_of_in ht, conv_of_in hu]
  exact bit_conv_prim o ht hu

omit [Arch] in
private theorem toUnsigned_in {R : ITy} {x : Int} (h : R.In x) (h0 : 0 ≤ x) : R.toUnsigned.In x := by
  have e := ITy.min_eq R.toUnsigned
  refine ⟨by rw [e]; exact h0, ?_⟩
  have h2 := h.2
  have : R.max ≤ R.toUnsigned.max := by
    unfold ITy.max
    have hd : R.digits ≤ R.toUnsigned.digits := by
      unfold ITy.digits ITy.toUnsigned ITy.bits; split <;> simp
    have := pow_le_pow_right₀ (show (1 : Int) ≤ 2 by decide) hd
    omega
  omega

omit [Arch] in
theorem pick_cases (o : Bitwise) (a b : Int) : (o.pick a b = a ∨ o.pick a b = b) ∧
    (o ≠ .band → a ≤ o.pick a b ∧ b ≤ o.pick a b) := by
  cases o <;> simp only [Bitwise.pick, pickMin, pickMax] <;> split <;> simp <;> omega

/-- the result type for operand ranges with non-negative ends -/
theorem bitTy_eq (o : Bitwise) {R : ITy} (hR : R.Ok) {T U : Opd} (h1 : R.In T.hi) (h2 : R.In U.hi) (p1 : 0 ≤ T.hi)
    (p2 : 0 ≤ U.hi) :
    bitTy o.pick R T U = .ret (Opd.range R 0 (2 ^ sbits (o.pick T.hi U.hi) - 1)) ∧
    R.In (2 ^ sbits (o.pick T.hi U.hi) - 1) := by
  have hp : R.In (o.pick T.hi U.hi) ∧ 0 ≤ o.pick T.hi U.hi := by
    rcases (pick_cases o T.hi U.hi).1 with h | h <;> rw [h] <;> exact ⟨by assumption, by assumption⟩
  have hin : R.In (2 ^ sbits (o.pick T.hi U.hi) - 1) := by
    have h := sbits_le_digits hp.1
    have := pow_le_pow_right₀ (show (1 : Int) ≤ 2 by decide) h
    have p : (0 : Int) < 2 ^ sbits (o.pick T.hi U.hi) := Int.pow_pos (by decide)
    have := R.min_nonpos
    refine ⟨by omega, ?_⟩
    unfold ITy.max; omega
  refine ⟨?_, hin⟩
  unfold bitTy
  dsimp only
  rw [conv_of_in (toUnsigned_in h1 p1), conv_of_in (toUnsigned_in h2 p2),
    static_ret (roundOut_nonneg (T := R.toUnsigned) hR (toUnsigned_in hp.1 hp.2) hp.2 (Or.inl rfl)), ret_bind, if_pos hin]

omit [Arch] in
/-- a number without high bits is small -/
theorem small_of_bits {R : ITy} {v : Int} (hv : R.In v) {n : Nat} (h : ∀ i, n ≤ i → bit v i = false) :
    0 ≤ v ∧ v < 2 ^ n := by
  have h0 : 0 ≤ v := by
    by_contra hn
    have hd : - 2 ^ (R.bits) ≤ v := by
      have := hv.1
      have e := ITy.min_eq R
      have p : (0 : Int) < 2 ^ R.bits := Int.pow_pos (by decide)
      have : R.digits ≤ R.bits := by unfold ITy.digits; split <;> omega
      have := pow_le_pow_right₀ (show (1 : Int) ≤ 2 by decide) this
      unfold ITy.max at e
      split at e <;> omega
    have h1 := bit_neg_high (i := max R.bits n) (by omega) hd (le_max_left _ _)
    rw [h _ (le_max_right _ _)] at h1; cases h1
  refine ⟨h0, ?_⟩
  have p : (0 : Int) < 2 ^ n := Int.pow_pos (by decide)
  have hz : v / 2 ^ n = 0 := by
    apply bit_ext
    intro i
    have e : bit (v / 2 ^ n) i = bit v (n + i) := by
      unfold bit
      rw [Int.ediv_ediv_of_nonneg (by omega), ← pow_add]
    rw [e, h _ (by omega)]
    unfold bit; simp
  have := Int.mul_ediv_add_emod v (2 ^ n)
  rw [hz] at this
  have := Int.emod_lt_of_pos v p
  omega

/-- Operand ranges without negative numbers that fit the result type `R`: the operation compiles, the value is in the range of
the result type. -/
theorem C27_bounds_partial (pp : PP) (o : Bitwise) (T U : Opd) (R : ITy) (hR : R.Ok)
    (hres : pp.result o.binOp T U = .ret R) (zT : 0 ≤ T.lo) (zU : 0 ≤ U.lo) (fT : T.hi ≤ R.max) (fU : U.hi ≤ R.max)
    (t u : Int) (ht : T.Has t) (hu : U.Has u) :
    ∃ v S, bitwise pp o T U t u = .ret v ∧ bitwiseTy pp o T U = .ret S ∧ S.Wf ∧ S.kind = .safe ∧ S.Has v ∧
      ∀ i, bit v i = logic o (bit t i) (bit u i) := by
  have a1 := ht.1; have a2 := ht.2; have b1 := hu.1; have b2 := hu.2
  have m := R.min_nonpos
  have it : R.In t := ⟨by omega, by omega⟩
  have iu : R.In u := ⟨by omega, by omega⟩
  have iT : R.In T.hi := ⟨by omega, by omega⟩
  have iU : R.In U.hi := ⟨by omega, by omega⟩
  obtain ⟨e, hin⟩ := bitTy_eq o hR iT iU (by omega) (by omega)
  have hret : bitwise pp o T U t u = .ret (conv R (prim o R R (conv R t) (conv R u))) := by
    rw [bitwise_eq hres, e]; rfl
  have hbits := C27_all_bits pp o T U t u _ R hres it iu hret
  refine ⟨_, Opd.range R 0 (2 ^ sbits (o.pick T.hi U.hi) - 1), hret, ?_, ?_, ?_, ?_, hbits⟩
  · unfold bitwiseTy; rw [hres, ret_bind, e]
  · refine ⟨hR, R.in_zero, hin, ?_, fun h => (by cases h), fun b h => (by cases h)⟩
    show (0 : Int) ≤ 2 ^ sbits (o.pick T.hi U.hi) - 1
    have p : (0 : Int) < 2 ^ sbits (o.pick T.hi U.hi) := Int.pow_pos (by decide)
    omega
  · rfl
  · have hs := small_of_bits (n := sbits (o.pick T.hi U.hi)) (conv_in R (prim o R R (conv R t) (conv R u))) (by
      intro i hi
      rw [hbits i]
      obtain ⟨pc, pm⟩ := pick_cases o T.hi U.hi
      have hl : 0 ≤ o.pick T.hi U.hi := by rcases pc with h | h <;> rw [h] <;> omega
      have hlt := lt_two_pow_sbits hl
      by_cases hand : o = .band
      · subst hand
        rcases pc with h | h
        · rw [bit_nonneg_high (d := sbits (Bitwise.pick .band T.hi U.hi)) (x := t) (by omega) (by omega) hi]
          rfl
        · rw [bit_nonneg_high (d := sbits (Bitwise.pick .band T.hi U.hi)) (x := u) (by omega) (by omega) hi]
          simp [logic]
      · obtain ⟨q1, q2⟩ := pm hand
        rw [bit_nonneg_high (x := t) (by omega) (by omega) hi, bit_nonneg_high (x := u) (by omega) (by omega) hi]
        cases o <;> rfl)
    exact ⟨hs.1, by show conv R _ ≤ 2 ^ sbits (o.pick T.hi U.hi) - 1; have := hs.2; omega⟩

/-! ### C38 complement -/

omit [Arch] in
theorem bit_not (t : Int) (i : Nat) : bit (-t - 1) i = !bit t i := by
  have p : (0 : Int) < 2 ^ i := Int.pow_pos (by decide)
  have h1 := Int.mul_ediv_add_emod t (2 ^ i)
  have h2 := Int.emod_lt_of_pos t p
  have h3 := Int.emod_nonneg t (show (2 : Int) ^ i ≠ 0 by omega)
  have e : (-t - 1) / 2 ^ i = -(t / 2 ^ i) - 1 := by
    refine ((Int.ediv_emod_unique (a := -t - 1) (r := 2 ^ i - 1 - t % 2 ^ i) p).2 ⟨?_, by omega, by omega⟩).1
    have : (2 : Int) ^ i * (-(t / 2 ^ i) - 1) = -(2 ^ i * (t / 2 ^ i)) - 2 ^ i := by ring
    omega
  unfold bit
  rw [e]
  rcases Int.emod_two_eq (t / 2 ^ i) with h | h <;> simp only [h] <;> simp <;> omega

theorem compl_res (T : Opd) :
    PP.native.result .bxor (Opd.ofBuiltin (promote T.base)) T = .ret (promote T.base) := by
  show Out.ret (uac (promote T.base) T.base) = _
  rw [uac_promote_left, uac_self]

/-- Native promotion: if `~x` compiles, it is the complement in the promoted type: `-x-1` if that is signed, `max-x` if it is
unsigned. -/
theorem C38_compl_value (T : Opd) (hT : T.Wf) (t v : Int) (ht : T.Has t) (hv : compl .native T t = .ret v) :
    v = (if (promote T.base).signed then -t - 1 else (promote T.base).max - t) := by
  have it : (promote T.base).In t := in_promote (hT.has_in ht)
  have i0 : (promote T.base).In (cNot T.base 0) := by rw [cNot_eq T.base.in_zero]; exact conv_in _ _
  have h := C27_all_bits .native .bxor _ T _ t v _ (compl_res T) i0 it hv
  apply bit_ext
  intro i
  rw [h i, cNot_eq T.base.in_zero]
  simp only [logic]
  have hd := (promote T.base).bits_pos
  rw [bit_conv, bit_not]
  have hz : ∀ j, bit 0 j = false := by intro j; unfold bit; simp
  rcases hs : (promote T.base).signed with _ | _
  · simp only [Bool.false_eq_true, if_false]
    split
    · rename_i hi
      rw [hz, show (promote T.base).max - t = (-t - 1) + 1 * 2 ^ (promote T.base).bits by
        unfold ITy.max; rw [ITy.digits_unsigned hs]; ring, bit_add_mul hi, bit_not]
      simp
    · rename_i hi
      have e := ITy.min_eq (promote T.base)
      rw [hs] at e; simp only [Bool.false_eq_true, if_false] at e
      have := it.1; have := it.2
      have hm : (promote T.base).In ((promote T.base).max - t) := ⟨by omega, by omega⟩
      have hb : (promote T.base).digits ≤ i := by rw [ITy.digits_unsigned hs]; omega
      rw [bit_high hm hb, bit_high it hb, hs]
      simp
  · simp only [if_true]
    have hn : ∀ j, bit (-1) j = true := by intro j; have := bit_not 0 j; simpa [hz] using this
    rw [bit_not t]
    split <;> simp [hz, hn]

/-- An unsigned type at least as wide as `int`: `~x` compiles and lies within the bounds of its type. -/
theorem C38_compl_unsigned_partial (T : Opd) (hT : T.Wf) (hs : T.base.signed = false) (hl : Arch.intLg ≤ T.base.lg) (t : Int)
    (ht : T.Has t) :
    ∃ S, compl .native T t = .ret (T.base.max - t) ∧ complTy .native T = .ret S ∧ S.Wf ∧ S.Has (T.base.max - t) := by
  have hp : promote T.base = T.base := by unfold promote; rw [if_neg (by omega)]
  have hmin : T.base.min = 0 := by have e := ITy.min_eq T.base; rw [hs] at e; simpa using e
  have hm : T.base.In (cNot T.base 0) := by rw [cNot_eq T.base.in_zero, hp]; exact conv_in _ _
  have hlo := hT.2.1.1
  have hhi := hT.2.2.1.2
  obtain ⟨v, S, h1, h2, h3, _, h4, _⟩ := C27_bounds_partial .native .bxor (Opd.ofBuiltin (promote T.base)) T
    _ (by rw [hp]; exact hT.1) (compl_res T)
    (by rw [hp]; show 0 ≤ T.base.min; omega) (by omega) (le_refl _) (by rw [hp]; exact hhi) (cNot T.base 0) t
    (by rw [hp]; exact hm) ht
  have hv := C38_compl_value T hT t v ht h1
  rw [hp, hs] at hv
  simp only [Bool.false_eq_true, if_false] at hv
  subst hv
  exact ⟨S, h1, h2, h3, h4⟩

/-- For every type that promotes to a signed type, and every non-negative value for which `~x` compiles, the result is
negative but the bounds of its type start at 0. -/
theorem C38_compl_refuted (T S : Opd) (hT : T.Wf) (hs : (promote T.base).signed = true) (t v : Int) (ht : T.Has t) (h0 : 0 ≤ t)
    (hv : compl .native T t = .ret v) (hS : complTy .native T = .ret S) : ¬ S.Has v := by
  have h := C38_compl_value T hT t v ht hv
  rw [hs, if_pos rfl] at h
  unfold complTy bitwiseTy at hS
  rw [show PP.native.result (Bitwise.binOp .bxor) (Opd.ofBuiltin (promote T.base)) T = .ret (promote T.base) from compl_res T,
    ret_bind] at hS
  unfold bitTy at hS
  dsimp only at hS
  rcases hx : Out.static (roundOut (promote T.base).toUnsigned (Bitwise.pick .bxor
    (conv (promote T.base).toUnsigned (Opd.ofBuiltin (promote T.base)).hi) (conv (promote T.base).toUnsigned T.hi))) with m | e | f
  · rw [hx, ret_bind] at hS
    split at hS
    · cases hS
      rintro ⟨a, _⟩
      have a : (0 : Int) ≤ v := a
      omega
    · cases hS
  · rw [hx] at hS; cases hS
  · rw [hx] at hS; cases hS

end

section
attribute [local instance] lp64

/-! ### Examples and refutations -/

example : bitwise .native .bor (Opd.range u32 0 100) (Opd.range u32 0 1000) 96 775 = .ret 871 ∧
    bitwiseTy .native .bor (Opd.range u32 0 100) (Opd.range u32 0 1000) = .ret (Opd.range u32 0 1023) ∧
    bitwise .native .band (Opd.range u32 0 100) (Opd.range u32 0 1000) 96 775 = .ret 0 ∧
    bitwiseTy .native .band (Opd.range u32 0 100) (Opd.range u32 0 1000) = .ret (Opd.range u32 0 127) ∧
    bitwise .automatic .bxor (Opd.range u32 0 100) (Opd.range u32 0 1000) 96 775 = .ret 871 := by decide +kernel

/-- `safe<int>(-1) | 0`: the value is -1, the type of the result is `[0, INT_MAX]` -/
theorem C27_bounds_refuted :
    bitwise .native .bor (Opd.ofSafe i32) (Opd.ofBuiltin i32) (-1) 0 = .ret (-1) ∧
    bitwiseTy .native .bor (Opd.ofSafe i32) (Opd.ofBuiltin i32) = .ret (Opd.range i32 0 2147483647) := by decide +kernel

/-- `safe_signed_range<-10,3>(-10) & 100`: the value is 100, the type of the result is `[0, 3]` -/
theorem C27_and_refuted :
    bitwise .native .band (Opd.range i32 (-10) 3) (Opd.range i32 0 100) (-10) 100 = .ret 100 ∧
    bitwiseTy .native .band (Opd.range i32 (-10) 3) (Opd.range i32 0 100) = .ret (Opd.range i32 0 3) := by decide +kernel

/-- ranges of negative numbers do not compile -/
example : bitwise .native .bor (Opd.range i32 (-10) (-3)) (Opd.ofBuiltin i32) (-10) 0 = .fault .illFormed := by
  decide +kernel

example : compl .native (Opd.ofSafe u32) 5 = .ret 4294967290 ∧ complTy .native (Opd.ofSafe u32) = .ret (Opd.ofSafe u32) ∧
    compl .native (Opd.ofSafe i32) 5 = .ret (-6) ∧
    complTy .native (Opd.ofSafe i32) = .ret (Opd.range i32 0 2147483647) := by decide +kernel

end
end Verif.Props
