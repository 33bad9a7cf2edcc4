import Verif.Limits
import Verif.Props.Safe2

/-!
Property C87: what the inherited members of `numeric_limits` say about a safe type.
-/

namespace Verif.Props
open Spec
section
variable [Arch]

/-- `digits` promises that every non-negative number of that many binary digits is a value of the type: true exactly for the types
that have 0 and reach up to the maximum of the stored type. -/
theorem C87_digits_partial (T : Opd) (hT : T.Wf) :
    (∀ v : Int, 0 ≤ v → v < 2 ^ limDigits T → T.Has v) ↔ T.lo ≤ 0 ∧ T.hi = T.base.max := by
  obtain ⟨_, i1, i2, hle, _, _⟩ := hT
  have hm : T.base.max = 2 ^ T.base.digits - 1 := rfl
  have hge := T.base.max_ge
  have h2 := i2.2
  unfold limDigits
  constructor
  · intro h
    have a := h 0 (by omega) (by omega)
    have b := h T.base.max (by omega) (by omega)
    exact ⟨a.1, by have := b.2; omega⟩
  · rintro ⟨a, b⟩ v h0 hv
    exact ⟨by omega, by omega⟩

/-- `digits10` of a stored type is the largest number of decimal digits such that every number, with or without a sign if the type is signed,
of so many digits is a value of the type. -/
theorem C87_digits10 (B : ITy) (hB : B.Ok) (T : Opd) (hT : T.base = B) :
    (∀ v : Int, (if B.signed then -10 ^ limDigits10 T < v else 0 ≤ v) → v < 10 ^ limDigits10 T → B.In v) ∧
    ¬ B.In (10 ^ (limDigits10 T + 1) - 1) := by
  subst hT
  have h4 : T.base.lg ≤ 4 := le_trans hB Arch.max128
  unfold limDigits10
  generalize T.base = B at *
  rcases B with ⟨s, l⟩
  replace h4 : l ≤ 4 := h4
  unfold ITy.In
  have hl : l = 0 ∨ l = 1 ∨ l = 2 ∨ l = 3 ∨ l = 4 := by omega
  rcases hl with rfl | rfl | rfl | rfl | rfl <;> cases s <;>
    exact ⟨fun v h1 h2 => by simp [ITy.min, ITy.max, ITy.digits, ITy.bits] at h1 h2 ⊢; omega,
      by simp [ITy.min, ITy.max, ITy.digits, ITy.bits]⟩

omit [Arch] in
/-- For safe types: every number of `digits10` decimal digits is a value exactly if the range has zero and the largest of these numbers. -/
theorem C87_digits10_partial (T : Opd) :
    (∀ v : Int, 0 ≤ v → v < 10 ^ limDigits10 T → T.Has v) ↔ T.lo ≤ 0 ∧ (10 : Int) ^ limDigits10 T - 1 ≤ T.hi := by
  have hpos : (0 : Int) < 10 ^ limDigits10 T := Int.pow_pos (by decide)
  constructor
  · intro h
    exact ⟨(h 0 (by omega) (by omega)).1, (h _ (by omega) (by omega)).2⟩
  · rintro ⟨a, b⟩ v h0 hv
    exact ⟨by omega, by omega⟩

/-- `is_signed` is true of types without negative values if their stored type is signed, and right otherwise. -/
theorem C87_signed_partial (T : Opd) (hT : T.Wf) :
    limSigned T = decide (T.lo < 0) ↔ (T.base.signed = true → T.lo < 0) := by
  obtain ⟨_, i1, i2, hle, _, _⟩ := hT
  unfold limSigned
  cases e : T.base.signed
  · have := i1.1
    have h0 : T.base.min = 0 := by unfold ITy.min; rw [e]; rfl
    have : ¬ T.lo < 0 := by omega
    simp [this]
  · simp

/-- `is_modulo` says that sums, differences and products beyond the limits wrap around. They never do: whatever is returned is the
exact result, for every policy that throws. -/
theorem C87_modulo (pp : PP) (hpp : pp.Wf) (p : EP) (hp : p.ae = .throw) (o : Arith) (ho : o = .add ∨ o = .sub ∨ o = .mul)
    (T U : Opd) (hT : T.Wf) (hU : U.Wf) (t u v : Int) (ht : T.Has t) (hu : U.Has u) (h : arith pp p o T U t u = .ret v) :
    v = math o t u := by
  rcases C23_exact pp hpp p hp o ho T U hT hU t u ht hu with g | ⟨e, g⟩ | g
  · rw [h] at g; exact Out.ret.inj g
  · rw [h] at g; cases g
  · rw [h] at g; cases g

/-- So `is_modulo` is right exactly for signed stored types, for which it is false. -/
theorem C87_modulo_partial (pp : PP) (hpp : pp.Wf) (p : EP) (hp : p.ae = .throw) (T : Opd) (hT : T.Wf) :
    (limModulo T = true ↔ ∃ o t u v, (o = .add ∨ o = .sub ∨ o = .mul) ∧ T.Has t ∧ T.Has u ∧ arith pp p o T T t u = .ret v ∧
      v ≠ math o t u) ↔ T.base.signed = true := by
  have h : ¬ ∃ o t u v, (o = .add ∨ o = .sub ∨ o = .mul) ∧ T.Has t ∧ T.Has u ∧ arith pp p o T T t u = .ret v ∧ v ≠ math o t u :=
    fun ⟨o, t, u, v, ho, ht, hu, hv, hn⟩ => hn (C87_modulo pp hpp p hp o ho T T hT hT t u v ht hu hv)
  rw [iff_false_right h]
  unfold limModulo
  simp
end

section
attribute [local instance] lp64

/-- `safe<unsigned>` says it is modulo and throws; a range of 0 to 10 says that it has eight binary digits; a range of 0 to 10 stored
in a signed type says that it is signed and that it has all numbers of two decimal digits -/
theorem C87_refuted :
    limModulo (Opd.ofSafe u32) = true ∧
    arith .native strictException .add (Opd.ofSafe u32) (Opd.ofSafe u32) 4294967295 1 = .thrown .positive_overflow_error ∧
    limDigits (Opd.range u8 0 10) = 8 ∧ ¬ (Opd.range u8 0 10).Has 255 ∧
    limSigned (Opd.range i8 0 10) = true ∧ ¬ (Opd.range i8 0 10).lo < 0 ∧
    limDigits10 (Opd.range i8 0 10) = 2 ∧ ¬ (Opd.range i8 0 10).Has 99 := by decide +kernel

example : limDigits10 (Opd.ofSafe i32) = 9 ∧ limDigits10 (Opd.ofSafe u64) = 19 ∧ i32.In 999999999 := by decide +kernel
example : (Opd.ofSafe u32).Wf ∧ (Opd.range u8 0 10).Wf ∧ arith .native strictException .add (Opd.ofSafe u32) (Opd.ofSafe u32) 5 6 = .ret 11 := by
  decide +kernel
end
end Verif.Props
