import Verif.Lit
import Verif.SafeSpec
import Verif.Proofs.Promotion

/-!
Properties C40 (literals) and C50 (range types).
-/

namespace Verif.Props
open Spec
section
variable [Arch]

/-- A literal type: one value of a type that exists. -/
private theorem litTy_wf {T : ITy} {N : Int} {b : Bool} (hT : T.Ok) (h : T.In N) : (litTy T N b).Wf :=
  ⟨hT, h, h, le_refl _, fun h => (by cases h), fun _ _ => rfl⟩

/-- C40: the stored type of a signed literal: signed, represents `N`, no smaller signed type does; range `[N, N]`. -/
theorem C40_signed (N : Int) (b : Bool) (h : tIntMax.In N) :
    ∃ T : ITy, signedLit N b = .ret ⟨T, N, N, .lit b⟩ ∧ (⟨T, N, N, .lit b⟩ : Opd).Wf ∧ T.signed = true ∧ T.In N ∧
      ∀ T' : ITy, T'.signed = true → T'.In N → T.lg ≤ T'.lg := by
  obtain ⟨S, e, hs, hok, a, _, hmin⟩ := signedStoredType_spec h h
  refine ⟨S, ?_, litTy_wf hok a, hs, a, fun T' hs' h' => hmin T' hs' h' h'⟩
  unfold signedLit
  rw [e, Out.ret_bind, if_pos a]; rfl

/-- C40: the stored type of an unsigned literal -/
theorem C40_unsigned (N : Int) (b : Bool) (h : tUIntMax.In N) :
    ∃ T : ITy, unsignedLit N b = .ret ⟨T, N, N, .lit b⟩ ∧ (⟨T, N, N, .lit b⟩ : Opd).Wf ∧ T.signed = false ∧ T.In N ∧
      ∀ T' : ITy, T'.signed = false → T'.In N → T.lg ≤ T'.lg := by
  obtain ⟨S, e, hs, hok, a, hmin⟩ := unsignedStoredType_spec (mn := N) h
  have a : S.In N := in_of_between S.in_zero a (h.nonneg rfl) (le_refl _)
  refine ⟨S, ?_, litTy_wf hok a, hs, a, fun T' hs' h' => hmin T' hs' h'⟩
  unfold unsignedLit
  rw [e, Out.ret_bind, if_pos a]; rfl

/-- C40: `make_safe_literal(n)` for a constant `n` of any type has the value `n`. -/
theorem C40_make (A : ITy) (hA : A.Ok) (n : Int) (b : Bool) (h : A.In n) :
    ∃ T : ITy, makeLit A n b = .ret ⟨T, n, n, .lit b⟩ ∧ T.signed = A.signed ∧ T.In n ∧ T.Ok := by
  unfold makeLit
  rcases hs : A.signed with _ | _
  · have h' : tUIntMax.In n := ITy.In.widen (U := tUIntMax) hs hA h
    rw [if_neg (by simp), conv_of_in h']
    obtain ⟨T, e, w, hs', i, _⟩ := C40_unsigned n b h'
    exact ⟨T, e, hs', i, w.1⟩
  · have h' : tIntMax.In n := ITy.In.widen (U := tIntMax) hs hA h
    rw [if_pos rfl, conv_of_in h']
    obtain ⟨T, e, w, hs', i, _⟩ := C40_signed n b h'
    exact ⟨T, e, hs', i, w.1⟩

/-- C40: conversion of a literal to a built-in type: its value, under every policy, if the type represents it; otherwise
the compiler rejects it or (a throwing policy) an exception is thrown. -/
theorem C40_convert (p : EP) (R T : ITy) (hT : T.Ok) (N : Int) (b : Bool) (h : T.In N) :
    (R.In N → litToBuiltin p R ⟨T, N, N, .lit b⟩ = .ret N) ∧
    (¬ R.In N → p.ae = .throw → litToBuiltin p R ⟨T, N, N, .lit b⟩ = .fault .illFormed ∨
      ∃ e, litToBuiltin p R ⟨T, N, N, .lit b⟩ = .thrown e) := by
  have wf := litTy_wf (b := b) hT h
  have hN : (litTy T N b).Has N := ⟨le_refl _, le_refl _⟩
  constructor
  · intro hR
    show litToBuiltin p R (litTy T N b) = _
    unfold litToBuiltin
    rw [litCheck_eq wf, litOk_in wf hR hR]
    show validate R R.min R.max p (litTy T N b) N = _
    rw [validate_eq R.in_min R.in_max wf hN, if_neg, if_pos (inclStatic_complete R.in_min R.in_max (le_refl _) ⟨hR.1, hR.2⟩)]
    intro hx
    have := exclStatic_sound R.in_min R.in_max hx
    have h1 := hR.1; have h2 := hR.2
    change R.max < N ∨ N < R.min at this
    omega
  · intro hR hp
    show litToBuiltin p R (litTy T N b) = _ ∨ ∃ e, litToBuiltin p R (litTy T N b) = _
    unfold litToBuiltin
    rw [litCheck_eq wf]
    split
    · show validate R R.min R.max p (litTy T N b) N = _ ∨ ∃ e, validate R R.min R.max p (litTy T N b) N = _
      rw [validate_eq R.in_min R.in_max wf hN, hp]
      split
      · exact Or.inl rfl
      · split
        · rename_i hi
          exact absurd (inclStatic_sound R.in_min R.in_max hi) hR
        · dsimp only
          rw [if_neg (show ¬ (R.min ≤ N ∧ N ≤ R.max) from hR)]
          exact Or.inr ⟨_, rfl⟩
    · exact Or.inl rfl

omit [Arch] in
/-- C40: unary plus of a literal is a literal with the same value and type. -/
theorem C40_plus (T : ITy) (N : Int) (b : Bool) :
    ∃ L, litPlus ⟨T, N, N, .lit b⟩ = .ret L ∧ L.base = T ∧ L.lo = N ∧ L.hi = N ∧ L.kind = .lit b :=
  ⟨_, rfl, rfl, rfl, rfl, rfl⟩

/-- C40: unary minus is the literal `-N` when the stored type of the literal represents `-N`, else it does not compile. -/
theorem C40_minus (T : ITy) (N : Int) (b : Bool) (h : T.In N) :
    litMinus ⟨T, N, N, .lit b⟩ = if T.In (-N) then .ret ⟨T, -N, -N, .lit b⟩ else .fault .illFormed := by
  unfold litMinus
  show Out.static (minus T make N >>= _) = _
  rw [minus_eq h]
  by_cases hn : T.In (-N)
  · have h1 := hn.1; have h2 := hn.2
    rw [if_pos hn, if_neg (by omega), if_neg (by omega), Out.ret_bind]
    simp only [CR.exception, Bool.false_eq_true, if_false]
    rw [cNeg_eq (in_promote h) (in_promote hn), Out.ret_bind, if_pos hn]; rfl
  · rw [if_neg hn]
    by_cases h1 : T.max < -N
    · rw [if_pos h1]; rfl
    · by_cases h2 : -N < T.min
      · rw [if_neg h1, if_pos h2]; rfl
      · exact absurd ⟨by omega, by omega⟩ hn

/-- complement of a signed literal: the literal `-N - 1` -/
theorem C40_not_signed (T : ITy) (hT : T.Ok) (N : Int) (b : Bool) (h : T.In N) (hs : T.signed = true) :
    litNot ⟨T, N, N, .lit b⟩ = .ret ⟨T, -N - 1, -N - 1, .lit b⟩ := by
  unfold litNot
  show Out.static (bitwiseNot T make N >>= _) = _
  have e := ITy.min_eq T
  rw [hs] at e; simp only [if_true] at e
  have h1 := h.1; have h2 := h.2
  rw [bitwiseNot_eq hT h, Out.ret_bind]
  simp only [CR.exception, Bool.false_eq_true, if_false]
  rw [cNot_signed hs h, if_pos ⟨by omega, by omega⟩]; rfl

/-- complement of an unsigned literal at least as wide as `int`: the literal `max - N` -/
theorem C40_not_unsigned (T : ITy) (hT : T.Ok) (N : Int) (b : Bool) (h : T.In N) (hs : T.signed = false)
    (hw : Arch.intLg ≤ T.lg) :
    litNot ⟨T, N, N, .lit b⟩ = .ret ⟨T, T.max - N, T.max - N, .lit b⟩ := by
  unfold litNot
  show Out.static (bitwiseNot T make N >>= _) = _
  have h1 := h.1; have h2 := h.2
  have hm := ITy.min_unsigned hs
  have hp : promote T = T := by unfold promote; rw [if_neg (by omega)]
  rw [bitwiseNot_eq hT h, Out.ret_bind]
  simp only [CR.exception, Bool.false_eq_true, if_false]
  have ev : cNot T N = T.max - N := by
    rw [cNot_eq h, hp, conv, hs, if_neg (by simp)]
    have e2 : T.max = 2 ^ T.bits - 1 := by unfold ITy.max; rw [ITy.digits_unsigned hs]
    have : -N - 1 = (T.max - N) + (2 ^ T.bits : Int) * (-1) := by omega
    rw [this, Int.add_mul_emod_self_left, Int.emod_eq_of_lt (by omega) (by omega)]
  rw [ev, if_pos ⟨by omega, by omega⟩]; rfl

/-- complement of an unsigned literal narrower than `int` never compiles -/
theorem C40_not_narrow (T : ITy) (hT : T.Ok) (N : Int) (b : Bool) (h : T.In N) (hs : T.signed = false)
    (hw : T.lg < Arch.intLg) : litNot ⟨T, N, N, .lit b⟩ = .fault .illFormed := by
  unfold litNot
  show Out.static (bitwiseNot T make N >>= _) = _
  have h1 := h.1; have h2 := h.2
  have hm := ITy.min_unsigned hs
  have hp : promote T = tInt := by unfold promote; rw [if_pos hw]
  have ip := in_promote h
  rw [hp] at ip
  have e := ITy.min_eq tInt
  have hts : tInt.signed = true := rfl
  rw [hts] at e; simp only [if_true] at e
  have i1 := ip.1; have i2 := ip.2
  rw [bitwiseNot_eq hT h, Out.ret_bind]
  simp only [CR.exception, Bool.false_eq_true, if_false]
  rw [cNot_eq h, hp, conv_of_in ⟨by omega, by omega⟩, if_neg]
  · rfl
  · rintro ⟨h3, _⟩; omega

/-! ### C50 -/

/-- C50: `safe_signed_range<Min, Max>` is a type with exactly these bounds, stored in the smallest signed type. -/
theorem C50_signed (mn mx : Int) (h1 : tIntMax.In mn) (h2 : tIntMax.In mx) (hle : mn ≤ mx) :
    ∃ S, signedRange mn mx = .ret S ∧ S.Wf ∧ S.kind = .safe ∧ S.base.signed = true ∧ (∀ x, S.Has x ↔ mn ≤ x ∧ x ≤ mx) ∧
      ∀ T' : ITy, T'.signed = true → T'.In mn → T'.In mx → S.base.lg ≤ T'.lg := by
  obtain ⟨S, e, hs, hok, a, b, hmin⟩ := signedStoredType_spec h1 h2
  refine ⟨Opd.range S mn mx, ?_, ⟨hok, a, b, hle, fun h => (by cases h), fun _ h => (by cases h)⟩, rfl, hs,
    fun x => Iff.rfl, hmin⟩
  unfold signedRange
  rw [e, Out.ret_bind, conv_of_in a, conv_of_in b]

/-- C50: `safe_unsigned_range<Min, Max>` -/
theorem C50_unsigned (mn mx : Int) (h1 : tUIntMax.In mn) (h2 : tUIntMax.In mx) (hle : mn ≤ mx) :
    ∃ S, unsignedRange mn mx = .ret S ∧ S.Wf ∧ S.kind = .safe ∧ S.base.signed = false ∧ (∀ x, S.Has x ↔ mn ≤ x ∧ x ≤ mx) ∧
      ∀ T' : ITy, T'.signed = false → T'.In mx → S.base.lg ≤ T'.lg := by
  obtain ⟨S, e, hs, hok, b, hmin⟩ := unsignedStoredType_spec (mn := mn) h2
  have h0 := h1.nonneg rfl
  have a : S.In mn := in_of_between S.in_zero b h0 hle
  refine ⟨Opd.range S mn mx, ?_, ⟨hok, a, b, hle, fun h => (by cases h), fun _ h => (by cases h)⟩, rfl, hs,
    fun x => Iff.rfl, hmin⟩
  unfold unsignedRange
  rw [e, Out.ret_bind, conv_of_in a, conv_of_in b]

end

section
attribute [local instance] lp64

example : signedLit (-1000) false = .ret ⟨i16, -1000, -1000, .lit false⟩ ∧ tIntMax.In (-1000) := by decide +kernel
example : unsignedLit 200 true = .ret ⟨u8, 200, 200, .lit true⟩ ∧ tUIntMax.In 200 := by decide +kernel
example : makeLit i32 77 false = .ret ⟨i8, 77, 77, .lit false⟩ ∧ i32.In 77 := by decide +kernel
example : litToBuiltin strictException u8 ⟨i16, 200, 200, .lit false⟩ = .ret 200 ∧
    litToBuiltin strictException u8 ⟨i16, 300, 300, .lit false⟩ = .fault .illFormed ∧
    litToBuiltin strictException u8 ⟨i16, -300, -300, .lit true⟩ = .thrown .domain_error := by decide +kernel
example : litMinus ⟨i8, 5, 5, .lit false⟩ = .ret ⟨i8, -5, -5, .lit false⟩ ∧
    litMinus ⟨u8, 5, 5, .lit false⟩ = .fault .illFormed ∧ i8.In 5 := by decide +kernel
example : litNot ⟨i8, 5, 5, .lit false⟩ = .ret ⟨i8, -6, -6, .lit false⟩ ∧
    litNot ⟨u32, 5, 5, .lit false⟩ = .ret ⟨u32, 4294967290, 4294967290, .lit false⟩ ∧
    litNot ⟨u16, 5, 5, .lit false⟩ = .fault .illFormed := by decide +kernel
example : signedRange (-5) 300 = .ret (Opd.range i16 (-5) 300) ∧ unsignedRange 5 10 = .ret (Opd.range u8 5 10) := by
  decide +kernel

/-- "whenever `-N` is representable" (in some integer type) is too much: the minimum of a type is stored in that very
type, and its negation does not compile although the next larger type represents it. -/
theorem C40_minus_refuted : signedLit (-128) false = .ret ⟨i8, -128, -128, .lit false⟩ ∧
    litMinus ⟨i8, -128, -128, .lit false⟩ = .fault .illFormed ∧ i16.In 128 := by decide +kernel

end
end Verif.Props
