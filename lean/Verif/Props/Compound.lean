import Verif.Props.Shift
import Verif.Props.Bitwise

/-!
Property C52: the compound assignments `<<=`, `>>=`, `|=`, `&=`, `^=`.
-/

namespace Verif.Props
open Spec
section
variable [Arch]

/-- storing a value that its type has -/
private theorem store_spec {p : EP} (hp : p.ae = .throw) {T S : Opd} (hT : T.Wf) (hS : S.Wf) (nT : NotLit T) {v : Int}
    (hv : S.Has v) :
    (store p T S v = .ret v ∧ T.Has v) ∨ ((∃ e, store p T S v = .thrown e) ∧ ¬ T.Has v) ∨ store p T S v = .fault .illFormed := by
  unfold store
  rcases nT with k | k
  · rw [k]; dsimp only
    obtain ⟨h1, h2⟩ := C22_toBuiltin p hp T.base S hS v hv
    obtain ⟨b1, b2⟩ := hT.2.2.2.2.1 k
    by_cases hi : T.base.In v
    · exact Or.inl ⟨h1 hi, by rw [b1]; exact hi.1, by rw [b2]; exact hi.2⟩
    · exact Or.inr (Or.inl ⟨h2 hi, fun h => hi ⟨by rw [← b1]; exact h.1, by rw [← b2]; exact h.2⟩⟩)
  · rw [k]; dsimp only
    exact C21_construct p hp T S hT hS v hv

/-- C52 for `<<=`, covered operand types: the exact value, which is in range, or an exception (or no compilation). -/
theorem C52_shl (pp : PP) (hpp : pp.Wf) (p : EP) (hp : p.ae = .throw) (hi : p.idb = .throw) (T U : Opd) (hT : T.Wf)
    (hU : U.Wf) (nT : NotLit T) (hc : ∀ R, pp.result .shl T U = .ret R → ShlCovered R T U) (t u : Int) (ht : T.Has t)
    (hu : U.Has u) :
    (compoundShl pp p T U t u = .ret (t * 2 ^ u.toNat) ∧ T.Has (t * 2 ^ u.toNat) ∧ 0 ≤ u) ∨
    (∃ e, compoundShl pp p T U t u = .thrown e) ∨ compoundShl pp p T U t u = .fault .illFormed := by
  obtain ⟨h1, h2⟩ := C26_shl_partial pp hpp p hp hi T U hT hU hc t u ht hu
  unfold compoundShl
  have hty : (∃ S, shlTy pp T U = .ret S) ∨ shlTy pp T U = .fault .illFormed := by
    unfold shlTy
    rcases PP.result_shift hpp (Or.inl rfl) hT hU with ⟨R, e, hR⟩ | e <;> rw [e]
    · left
      obtain ⟨ri, e', _⟩ := shl_res hR hT hU
      rw [Out.ret_bind]; unfold resTy; rw [e']; exact ⟨_, rfl⟩
    · exact Or.inr rfl
  rcases h1 with h | ⟨x, h⟩ | h
  · obtain ⟨S, e, wS, _, hS⟩ := C49_shl_bounds pp hpp p hp hi T U hT hU hc t u _ ht hu h
    rw [e, Out.ret_bind, h, Out.ret_bind]
    have hu0 : 0 ≤ u := by
      by_contra hn
      rcases h2 (by omega) with ⟨x, g⟩ | g <;> rw [g] at h <;> cases h
    rcases store_spec hp hT wS nT hS with ⟨g, g'⟩ | ⟨g, _⟩ | g
    · exact Or.inl ⟨g, g', hu0⟩
    · exact Or.inr (Or.inl g)
    · exact Or.inr (Or.inr g)
  · rcases hty with ⟨S, e⟩ | e
    · rw [e, Out.ret_bind, h]; exact Or.inr (Or.inl ⟨x, rfl⟩)
    · rw [e]; exact Or.inr (Or.inr rfl)
  · rcases hty with ⟨S, e⟩ | e
    · rw [e, Out.ret_bind, h]; exact Or.inr (Or.inr rfl)
    · rw [e]; exact Or.inr (Or.inr rfl)

/-- C52 for `>>=`, with the exclusions of C26. -/
theorem C52_shr_partial (pp : PP) (hpp : pp.Wf) (p : EP) (hp : p.ae = .throw) (hi : p.idb = .throw) (T U : Opd) (hT : T.Wf)
    (hU : U.Wf) (nT : NotLit T) (t u : Int) (hc : ∀ R, pp.result .shr T U = .ret R → ShrCovered R T U ∧ ¬ FullWidth R u)
    (ht : T.Has t) (hu : U.Has u) :
    (compoundShr pp p T U t u = .ret (t / 2 ^ u.toNat) ∧ T.Has (t / 2 ^ u.toNat) ∧ 0 ≤ u ∧ 0 ≤ t) ∨
    (∃ e, compoundShr pp p T U t u = .thrown e) ∨ compoundShr pp p T U t u = .fault .illFormed := by
  obtain ⟨h1, h2⟩ := C26_shr_partial pp hpp p hp hi T U hT hU t u hc ht hu
  unfold compoundShr
  have hty : (∃ S, shrTy pp T U = .ret S) ∨ shrTy pp T U = .fault .illFormed := by
    unfold shrTy
    rcases PP.result_shift hpp (Or.inr rfl) hT hU with ⟨R, e, hR⟩ | e <;> rw [e]
    · rcases shr_res hR hT hU with e' | ⟨ri, e', _⟩
      · right; rw [Out.ret_bind]; unfold resTy; rw [e']; rfl
      · left; rw [Out.ret_bind]; unfold resTy; rw [e']; exact ⟨_, rfl⟩
    · exact Or.inr rfl
  rcases h1 with h | ⟨x, h⟩ | h
  · obtain ⟨S, e, wS, _, hS⟩ := C49_shr_bounds_partial pp hpp p hp hi T U hT hU t u _ hc ht hu h
    rw [e, Out.ret_bind, h, Out.ret_bind]
    have hu0 : 0 ≤ u ∧ 0 ≤ t := by
      by_contra hn
      rcases h2 (by omega) with ⟨x, g⟩ | g <;> rw [g] at h <;> cases h
    rcases store_spec hp hT wS nT hS with ⟨g, g'⟩ | ⟨g, _⟩ | g
    · exact Or.inl ⟨g, g', hu0⟩
    · exact Or.inr (Or.inl g)
    · exact Or.inr (Or.inr g)
  · rcases hty with ⟨S, e⟩ | e
    · rw [e, Out.ret_bind, h]; exact Or.inr (Or.inl ⟨x, rfl⟩)
    · rw [e]; exact Or.inr (Or.inr rfl)
  · rcases hty with ⟨S, e⟩ | e
    · rw [e, Out.ret_bind, h]; exact Or.inr (Or.inr rfl)
    · rw [e]; exact Or.inr (Or.inr rfl)

/-- C52 for `|=`, `&=`, `^=` on ranges without negative numbers that fit the result type: the value with the right bits, in
range, or an exception when it is not in range (or no compilation). -/
theorem C52_bit_partial (pp : PP) (p : EP) (hp : p.ae = .throw) (o : Bitwise) (T U : Opd) (hT : T.Wf) (nT : NotLit T)
    (R : ITy) (hR : R.Ok) (hres : pp.result o.binOp T U = .ret R) (zT : 0 ≤ T.lo) (zU : 0 ≤ U.lo) (fT : T.hi ≤ R.max)
    (fU : U.hi ≤ R.max) (t u : Int) (ht : T.Has t) (hu : U.Has u) :
    ∃ v, (∀ i, bit v i = logic o (bit t i) (bit u i)) ∧
      ((compoundBit pp p o T U t u = .ret v ∧ T.Has v) ∨ ((∃ e, compoundBit pp p o T U t u = .thrown e) ∧ ¬ T.Has v) ∨
        compoundBit pp p o T U t u = .fault .illFormed) := by
  obtain ⟨v, S, h1, h2, wS, _, hS, hb⟩ := C27_bounds_partial pp o T U R hR hres zT zU fT fU t u ht hu
  refine ⟨v, hb, ?_⟩
  unfold compoundBit
  rw [h2, Out.ret_bind, h1, Out.ret_bind]
  exact store_spec hp hT wS nT hS

end

section
attribute [local instance] lp64

example : compoundShl .native strictException (Opd.range i32 0 1000) (Opd.ofBuiltin i32) 5 3 = .ret 40 ∧
    compoundShl .native strictException (Opd.range i32 0 1000) (Opd.ofBuiltin i32) 500 3 = .thrown .positive_overflow_error ∧
    compoundShr .native strictException (Opd.range i32 0 1000) (Opd.ofBuiltin i32) 500 3 = .ret 62 ∧
    ShrCovered i32 (Opd.range i32 0 1000) (Opd.ofBuiltin i32) ∧ ¬ FullWidth i32 3 := by decide +kernel
example : compoundBit .native strictException .bor (Opd.range u32 0 1000) (Opd.range u32 0 7) 8 5 = .ret 13 ∧
    compoundBit .native strictException .bxor (Opd.range u32 0 1000) (Opd.range u32 0 50) 1000 16 =
      .thrown .positive_overflow_error ∧
    PP.native.result .bor (Opd.range u32 0 1000) (Opd.range u32 0 7) = .ret u32 := by decide +kernel

/-- C52 fails for `|=` with a negative operand: the result type `[0, INT_MAX]` is the very type of the variable, so the
value -1 is copied without validation. -/
theorem C52_or_refuted :
    bitwiseTy .native .bor (Opd.range i32 0 2147483647) (Opd.ofBuiltin i32) = .ret (Opd.range i32 0 2147483647) ∧
    compoundBit .native strictException .bor (Opd.range i32 0 2147483647) (Opd.ofBuiltin i32) 5 (-1) = .ret (-1) ∧
    ¬ (Opd.range i32 0 2147483647).Has (-1) := by decide +kernel

/-- C52 fails for `>>=` by the full width of `unsigned`: undefined behaviour. -/
theorem C52_shr_width_refuted :
    compoundShr .native strictException (Opd.ofSafe u32) (Opd.ofBuiltin i32) 100 32 = .fault .ub := by decide +kernel

/-- The wrong type `[0, 0]` of `safe<unsigned>(100) >> 1` destroys the range invariant: assigned to a variable of type
`safe_unsigned_range<0, 9>` the value 50 is not checked. -/
theorem C49_store_refuted : shrTy .native (Opd.ofSafe u32) (Opd.ofBuiltin i32) = .ret (Opd.range u32 0 0) ∧
    shr .native strictException (Opd.ofSafe u32) (Opd.ofBuiltin i32) 100 1 = .ret 50 ∧
    store strictException (Opd.range u8 0 9) (Opd.range u32 0 0) 50 = .ret 50 ∧ ¬ (Opd.range u8 0 9).Has 50 := by
  decide +kernel

end
end Verif.Props
