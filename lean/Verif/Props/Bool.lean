import Verif.Proofs.Bool

/-!
Property C69: conversion to `bool`, as in `if(x)`, `while(x)`, `!x`.
-/

namespace Verif.Props
open Spec

/-! ### C69

C69 in full: `T.Wf → T.Has t → toBool p T t = .ret (decide (t ≠ 0))`: a safe value is a condition that holds unless the value is
zero, as for built-in integers. False for the unchanged code (`C69_refuted`): every value other than 0 and 1 is treated
as not representable in `bool`. -/

section
variable [Arch]

/-- Whatever the policy: an answer, if there is one, is right. -/
theorem C69_sound_partial (p : EP) (T : Opd) (hT : T.Wf) (t : Int) (ht : T.Has t) (b : Bool) (h : toBool p T t = .ret b) :
    b = decide (t ≠ 0) := by
  have run : ∀ x, boolRun p x = .ret b → b = decide (x ≠ 0) := fun x hx => by
    unfold boolRun at hx
    split at hx
    · cases hx
    · split_ifs at hx; cases hx; rfl
    · split_ifs at hx; cases hx; rfl
    · split_ifs at hx; cases hx; rfl
  rcases hk : T.kind with _ | _ | c
  · unfold toBool at h; rw [hk] at h; cases h; rfl
  · rw [toBool_safe hT hk ht] at h; exact run t h
  · have e := hT.2.2.2.2.2 c hk
    have et : t = T.lo := by have := ht.1; have := ht.2; omega
    rw [toBool_lit hT hk] at h
    subst et
    split_ifs at h
    · cases h; rfl
    · exact run _ h

/-- With a throwing policy, exactly what happens to a safe value: 0 and 1 are converted, the others throw. -/
theorem C69_safe_partial (p : EP) (hp : p.ae = .throw) (T : Opd) (hT : T.Wf) (hk : T.kind = .safe) (t : Int) (ht : T.Has t) :
    (t = 0 → toBool p T t = .ret false) ∧ (t = 1 → toBool p T t = .ret true) ∧
    (1 < t → toBool p T t = .thrown .positive_overflow_error) ∧ (t < 0 → toBool p T t = .thrown .domain_error) := by
  rw [toBool_safe hT hk ht]
  unfold boolRun
  rw [hp]
  refine ⟨?_, ?_, ?_, ?_⟩
  · rintro rfl; rfl
  · rintro rfl; rfl
  · intro h; dsimp only; rw [if_neg (by omega), if_pos h]
  · intro h; dsimp only; rw [if_pos h]

/-- With a trapping policy no safe value is accepted as a condition, not even one whose type has only the values 0 and 1. -/
theorem C69_trap (p : EP) (hp : p.ae = .trap) (T : Opd) (hT : T.Wf) (hk : T.kind = .safe) (t : Int) (ht : T.Has t) :
    toBool p T t = .fault .illFormed := by
  rw [toBool_safe hT hk ht]; unfold boolRun; rw [hp]

/-- With an ignoring policy the conversion of other values than 0 and 1 is undefined behaviour. -/
theorem C69_ignore_partial (p : EP) (hp : p.ae = .ignore) (T : Opd) (hT : T.Wf) (hk : T.kind = .safe) (t : Int) (ht : T.Has t) :
    toBool p T t = if t = 0 ∨ t = 1 then .ret (decide (t ≠ 0)) else .fault .ub := by
  rw [toBool_safe hT hk ht]; unfold boolRun; rw [hp]
  dsimp only
  by_cases h : t = 0 ∨ t = 1
  · rw [if_neg (by omega), if_pos h]
  · rw [if_pos (by omega), if_neg h]

/-- Literals: 0 and 1 are converted at compile time whatever the policy; larger ones do not compile. -/
theorem C69_literal_partial (p : EP) (T : Opd) (hT : T.Wf) (b : Bool) (hk : T.kind = .lit b) :
    (T.lo = 0 → toBool p T T.lo = .ret false) ∧ (T.lo = 1 → toBool p T T.lo = .ret true) ∧
    (1 < T.lo → toBool p T T.lo = .fault .illFormed) ∧
    (T.lo < 0 → p.ae = .throw → b = true → toBool p T T.lo = .thrown .domain_error) := by
  rw [toBool_lit hT hk]
  refine ⟨?_, ?_, ?_, ?_⟩
  · intro h; rw [if_pos (Or.inl h), h]; rfl
  · intro h; rw [if_pos (Or.inr h), h]; rfl
  · intro h; rw [if_neg (by omega), if_pos (Or.inl h)]
  · intro h hp hb
    rw [if_neg (by omega), if_neg (by rintro (g | g); · omega
                                      · rw [hb] at g; cases g)]
    unfold boolRun; rw [hp]; dsimp only; rw [if_pos h]

/-- Built-in values are tested against zero. -/
theorem C69_builtin (p : EP) (B : ITy) (t : Int) : toBool p (Opd.ofBuiltin B) t = .ret (decide (t ≠ 0)) := rfl

end

section
attribute [local instance] lp64

private abbrev loose : EP := ⟨.throw, .ignore, .ignore, .ignore⟩

example : (Opd.ofSafe i32).Wf ∧ (Opd.ofSafe i32).Has 1 ∧ toBool loose (Opd.ofSafe i32) 1 = .ret true := by decide +kernel
example : (Opd.range u8 0 1).Wf ∧ (Opd.range u8 0 1).Has 1 ∧
    toBool ⟨.trap, .trap, .trap, .trap⟩ (Opd.range u8 0 1) 1 = .fault .illFormed := by decide +kernel
example : (⟨i8, 1, 1, .lit true⟩ : Opd).Wf ∧ (⟨i8, -1, -1, .lit true⟩ : Opd).Wf := by decide +kernel

/-- C69 fails: `safe<int> x = 2; if(x)` throws, and so does -1; with an ignoring policy it is undefined behaviour. -/
theorem C69_refuted :
    toBool loose (Opd.ofSafe i32) 2 = .thrown .positive_overflow_error ∧
    toBool loose (Opd.ofSafe i32) (-1) = .thrown .domain_error ∧
    toBool ⟨.ignore, .ignore, .ignore, .ignore⟩ (Opd.ofSafe u8) 3 = .fault .ub ∧
    (Opd.ofSafe i32).Has 2 ∧ (Opd.ofSafe i32).Has (-1) ∧ (Opd.ofSafe u8).Has 3 := by decide +kernel

end
end Verif.Props
