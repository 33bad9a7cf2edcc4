import Verif.Props.Types

/-!
Property C32: the C++ emulation policy.
-/

namespace Verif.Props
open Spec

private theorem rank_lt {m : CppCfg} (hm : CppOrdered m) {T U : ITy} (hT : CppListed m T) (hU : CppListed m U) :
    cppRank m T.lg < cppRank m U.lg ↔ T.lg < U.lg := by
  obtain ⟨h1, h2, h3, h4⟩ := hm
  unfold CppListed at hT hU
  unfold cppRank
  generalize T.lg = a at *
  generalize U.lg = b at *
  constructor
  · intro h
    split_ifs at h <;> omega
  · intro h
    split_ifs <;> omega

private theorem digits_mono {a b : Nat} (h : a < b) : (⟨false, a⟩ : ITy).digits ≤ (⟨true, b⟩ : ITy).digits := by
  unfold ITy.digits ITy.bits
  have : 2 ^ (a + 1) ≤ 2 ^ b := Nat.pow_le_pow_right (by omega) h
  have := Nat.two_pow_pos a
  rw [Nat.pow_succ] at *
  simp only [Bool.false_eq_true, if_false, if_true]
  omega

private theorem promote_listed {m : CppCfg} (hm : CppOrdered m) {T : ITy} (hT : CppListed m T)
    (hs : T.lg < m.i → T.signed = true) :
    cppPromote m T = cppPromoteSpec m T ∧ CppListed m (cppPromoteSpec m T) := by
  have hi : CppListed m ⟨true, m.i⟩ := Or.inr (Or.inr (Or.inl rfl))
  have r := rank_lt hm hi hT
  have r' := rank_lt hm hT hi
  dsimp only at r r'
  unfold cppPromote cppPromoteSpec copySign higherRanked
  constructor
  · dsimp only
    split_ifs with g1 g2 g2
    · have := r.1 g1; omega
    · rfl
    · dsimp only; rw [hs g2]
    · -- the width of int
      have : ¬ m.i < T.lg := fun h => g1 (r.2 h)
      rw [show m.i = T.lg by omega]
  · split
    · exact hi
    · exact hT

/-- For a machine with ordered widths, operand types of listed widths, no unsigned type narrower than `int`: the result type
of the policy is the one the C++ rules give. The restrictions are necessary, see the refutations below. -/
theorem C32_result_partial (m : CppCfg) (hm : CppOrdered m) (T U : ITy) (hT : CppListed m T) (hU : CppListed m U)
    (sT : T.lg < m.i → T.signed = true) (sU : U.lg < m.i → U.signed = true) :
    cppResult m T U = .ret (cppSpec m T U) := by
  obtain ⟨e1, l1⟩ := promote_listed hm hT sT
  obtain ⟨e2, l2⟩ := promote_listed hm hU sU
  unfold cppResult cppSpec
  rw [e1, e2]
  generalize cppPromoteSpec m T = P at *
  generalize cppPromoteSpec m U = Q at *
  clear e1 e2 hT hU sT sU T U
  have r1 := rank_lt hm l1 l2
  have r2 := rank_lt hm l2 l1
  unfold cppUac cppConvSpec higherRanked
  rcases P with ⟨s, a⟩
  rcases Q with ⟨t, b⟩
  dsimp only at r1 r2 ⊢
  have k1 : cppRank m a ≤ cppRank m b ↔ a ≤ b := by
    rw [← not_lt, ← not_lt]; exact not_congr r2
  have k2 : cppRank m b ≤ cppRank m a ↔ b ≤ a := by
    rw [← not_lt, ← not_lt]; exact not_congr r1
  rcases s with _ | _ <;> rcases t with _ | _
  · simp only [r1, if_true]
    split_ifs with h1 h2 h3
    · rw [show a = b from congrArg ITy.lg h1] at h2; omega
    · rfl
    · rfl
    · rfl
  · have hne : ¬ ((⟨false, a⟩ : ITy) = ⟨true, b⟩) := fun h => by cases h
    simp only [selectSigned, selectUnsigned, Bool.false_eq_true, if_false, if_neg hne, k2]
    split_ifs with h1 h2 h3
    · omega
    · rfl
    · rfl
    · omega
    · exact absurd (digits_mono (by omega)) h3
  · have hne : ¬ ((⟨true, a⟩ : ITy) = ⟨false, b⟩) := fun h => by cases h
    simp only [selectSigned, selectUnsigned, if_true, if_neg hne, k1, Bool.true_eq_false, if_false]
    split_ifs with h1 h2 h3
    · omega
    · rfl
    · rfl
    · omega
    · exact absurd (digits_mono (by omega)) h3
  · simp only [r1, if_true]
    split_ifs with h1 h2 h3
    · rw [show a = b from congrArg ITy.lg h1] at h2; omega
    · rfl
    · rfl
    · rfl

/-- the promotion alone: right for every listed type except unsigned types narrower than `int`, which become unsigned -/
theorem C32_promote_partial (m : CppCfg) (hm : CppOrdered m) (T : ITy) (hT : CppListed m T) :
    cppPromote m T = if T.lg < m.i ∧ T.signed = false then ⟨false, m.i⟩ else cppPromoteSpec m T := by
  by_cases h : T.lg < m.i → T.signed = true
  · rw [if_neg (fun g => by have := h g.1; rw [g.2] at this; cases this), (promote_listed hm hT h).1]
  · have h : T.lg < m.i ∧ T.signed = false := by
      rcases hs : T.signed with _ | _
      · rw [hs] at h; simp at h; exact ⟨h, rfl⟩
      · rw [hs] at h; simp at h
    rw [if_pos h]
    have r := rank_lt hm (show CppListed m ⟨true, m.i⟩ from Or.inr (Or.inr (Or.inl rfl))) hT
    dsimp only at r
    unfold cppPromote copySign higherRanked
    dsimp only
    rw [if_neg (fun g => by have := r.1 g; omega), h.2]

/-- the type is unsigned and narrower than `int` of the machine -/
private theorem promote_small {m : CppCfg} (hm : CppOrdered m) {T : ITy} (hT : CppListed m T) (h : T.lg < m.i)
    (hs : T.signed = false) : cppPromote m T = ⟨false, m.i⟩ := by
  rw [C32_promote_partial m hm T hT, if_pos ⟨h, hs⟩]

private theorem listed_spec {m : CppCfg} {T : ITy} (hT : CppListed m T) : CppListed m (cppPromoteSpec m T) := by
  unfold cppPromoteSpec
  split
  · exact Or.inr (Or.inr (Or.inl rfl))
  · exact hT

private theorem uac_unsigned {m : CppCfg} (hm : CppOrdered m) {P : ITy} (hP : CppListed m P) (hle : m.i ≤ P.lg) :
    cppUac m ⟨false, m.i⟩ P = .ret (if P = ⟨true, m.i⟩ then ⟨false, m.i⟩ else P) ∧
    cppUac m P ⟨false, m.i⟩ = .ret (if P = ⟨true, m.i⟩ then ⟨false, m.i⟩ else P) := by
  have hi : CppListed m ⟨false, m.i⟩ := Or.inr (Or.inr (Or.inl rfl))
  have r1 := rank_lt hm hi hP
  have r2 := rank_lt hm hP hi
  rcases P with ⟨s, a⟩
  dsimp only at r1 r2 hle
  rcases s with _ | _
  · have e : ¬ ((⟨false, a⟩ : ITy) = ⟨true, m.i⟩) := fun h => by cases h
    rw [if_neg e]
    unfold cppUac higherRanked
    by_cases h : a = m.i
    · subst h; simp
    · have n1 : ¬ ((⟨false, m.i⟩ : ITy) = ⟨false, a⟩) := fun g => h (by cases g; rfl)
      have n2 : ¬ ((⟨false, a⟩ : ITy) = ⟨false, m.i⟩) := fun g => h (by cases g; rfl)
      simp only [if_neg n1, if_neg n2, if_true]
      rw [if_pos (r1.2 (by omega)), if_neg (fun g => by have := r2.1 g; omega)]
      exact ⟨rfl, rfl⟩
  · have n1 : ¬ ((⟨false, m.i⟩ : ITy) = ⟨true, a⟩) := fun h => by cases h
    have n2 : ¬ ((⟨true, a⟩ : ITy) = ⟨false, m.i⟩) := fun h => by cases h
    unfold cppUac
    simp only [selectSigned, selectUnsigned, Bool.false_eq_true, Bool.true_eq_false, if_false, if_true, if_neg n1, if_neg n2]
    by_cases h : a = m.i
    · subst h
      simp
    · have n3 : ¬ ((⟨true, a⟩ : ITy) = ⟨true, m.i⟩) := fun g => h (by cases g; rfl)
      have hr : ¬ cppRank m a ≤ cppRank m m.i := by
        have := r1.2 (show m.i < a by omega); omega
      rw [if_neg hr, if_neg n3, if_pos (digits_mono (by omega))]
      exact ⟨rfl, rfl⟩

/-- Exactly which type the policy gives for all listed types of an ordered machine: `unsigned int` where the rules of C++
give `int` and one operand is an unsigned type narrower than `int`; the type of the rules of C++ in all other cases. -/
theorem C32_exact (m : CppCfg) (hm : CppOrdered m) (T U : ITy) (hT : CppListed m T) (hU : CppListed m U) :
    cppResult m T U = .ret
      (if cppSpec m T U = ⟨true, m.i⟩ ∧ ((T.lg < m.i ∧ T.signed = false) ∨ (U.lg < m.i ∧ U.signed = false)) then ⟨false, m.i⟩
       else cppSpec m T U) := by
  have spec_le : ∀ P : ITy, m.i ≤ (cppPromoteSpec m P).lg := fun P => by
    unfold cppPromoteSpec; split
    · exact Nat.le_refl _
    · omega
  have left : ∀ {P : ITy}, m.i ≤ P.lg → cppConvSpec ⟨true, m.i⟩ P = P ∧ cppConvSpec P ⟨true, m.i⟩ = P := fun {P} h => by
    rcases P with ⟨s, a⟩
    unfold cppConvSpec
    dsimp only at h ⊢
    rcases s with _ | _
    · simp only [Bool.true_eq_false, Bool.false_eq_true, if_false, if_true]
      refine ⟨if_neg (by omega), if_neg (by omega)⟩
    · simp only [if_true]
      rcases Nat.lt_or_ge m.i a with g | g
      · rw [if_pos g, if_neg (by omega)]; exact ⟨rfl, rfl⟩
      · rw [if_neg (by omega), if_neg (by omega), show a = m.i by omega]; exact ⟨rfl, rfl⟩
  have small : ∀ {P : ITy}, P.lg < m.i → cppPromoteSpec m P = ⟨true, m.i⟩ := fun {P} h => if_pos h
  by_cases h1 : T.lg < m.i ∧ T.signed = false
  · have eS : cppSpec m T U = cppPromoteSpec m U := by
      unfold cppSpec; rw [small h1.1]; exact (left (spec_le U)).1
    rw [eS]
    unfold cppResult
    rw [promote_small hm hT h1.1 h1.2]
    by_cases h2 : U.lg < m.i ∧ U.signed = false
    · rw [promote_small hm hU h2.1 h2.2, small h2.1, if_pos ⟨rfl, Or.inl h1⟩]
      unfold cppUac; rw [if_pos rfl]
    · rw [C32_promote_partial m hm U hU, if_neg h2, (uac_unsigned hm (listed_spec hU) (spec_le U)).1]
      congr 1
      exact if_congr ⟨fun g => ⟨g, Or.inl h1⟩, fun g => g.1⟩ rfl rfl
  · by_cases h2 : U.lg < m.i ∧ U.signed = false
    · have eS : cppSpec m T U = cppPromoteSpec m T := by
        unfold cppSpec; rw [small h2.1]; exact (left (spec_le T)).2
      rw [eS]
      unfold cppResult
      rw [promote_small hm hU h2.1 h2.2, C32_promote_partial m hm T hT, if_neg h1,
        (uac_unsigned hm (listed_spec hT) (spec_le T)).2]
      congr 1
      exact if_congr ⟨fun g => ⟨g, Or.inr h2⟩, fun g => g.1⟩ rfl rfl
    · rw [if_neg (fun g => g.2.elim h1 h2)]
      refine C32_result_partial m hm T U hT hU (fun g => ?_) (fun g => ?_)
      · cases e : T.signed
        · exact absurd ⟨g, e⟩ h1
        · rfl
      · cases e : U.signed
        · exact absurd ⟨g, e⟩ h2
        · rfl

/-- Exactly when the type is the one of the rules of C++: unless the rules give `int` and an operand is unsigned and
narrower than `int`. -/
theorem C32_iff (m : CppCfg) (hm : CppOrdered m) (T U : ITy) (hT : CppListed m T) (hU : CppListed m U) :
    cppResult m T U = .ret (cppSpec m T U) ↔
      ¬ (cppSpec m T U = ⟨true, m.i⟩ ∧ ((T.lg < m.i ∧ T.signed = false) ∨ (U.lg < m.i ∧ U.signed = false))) := by
  rw [C32_exact m hm T U hT hU]
  split_ifs with h
  · refine iff_of_false (fun g => ?_) (fun g => g h)
    rw [h.1] at g; cases g
  · exact iff_of_true rfl h

/-- Shifts, whose type should be the promoted type of the left operand: the policy gives it exactly if the conversion with the
type of the count does not change it, unless it is `int` and an operand is unsigned and narrower than `int`. -/
theorem C32_shift_iff (m : CppCfg) (hm : CppOrdered m) (T U : ITy) (hT : CppListed m T) (hU : CppListed m U) :
    cppResult m T U = .ret (cppPromoteSpec m T) ↔
      cppSpec m T U = cppPromoteSpec m T ∧
      ¬ (cppPromoteSpec m T = ⟨true, m.i⟩ ∧ ((T.lg < m.i ∧ T.signed = false) ∨ (U.lg < m.i ∧ U.signed = false))) := by
  rw [C32_exact m hm T U hT hU]
  split_ifs with h
  · refine iff_of_false (fun g => ?_) (fun g => g.2 ⟨g.1 ▸ h.1, h.2⟩)
    have e : cppPromoteSpec m T = ⟨false, m.i⟩ := (Out.ret.inj g).symm
    -- `unsigned int` and anything is never `int`
    have := h.1
    unfold cppSpec at this
    rw [e] at this
    unfold cppConvSpec at this
    dsimp only at this
    rcases e2 : cppPromoteSpec m U with ⟨s, a⟩
    rw [e2] at this
    have ha : m.i ≤ a := by
      have : m.i ≤ (cppPromoteSpec m U).lg := by
        unfold cppPromoteSpec; split
        · exact Nat.le_refl _
        · omega
      rw [e2] at this; exact this
    rcases s with _ | _
    · simp only [if_true] at this; split_ifs at this <;> cases this
    · simp only [Bool.false_eq_true, if_false] at this
      split_ifs at this with g1
      · cases this; omega
      · cases this
  · constructor
    · intro g
      have e : cppSpec m T U = cppPromoteSpec m T := Out.ret.inj g
      exact ⟨e, fun g => h ⟨e.trans g.1, g.2⟩⟩
    · rintro ⟨g, _⟩; rw [g]

/-- On a machine whose `int` is that of the compiler the rules of C++ are those of the compiler. -/
theorem C32_host_spec [Arch] (m : CppCfg) (hi : m.i = Arch.intLg) (T U : ITy) : cppSpec m T U = uac T U := by
  unfold cppSpec uac cppPromoteSpec promote tInt
  rw [hi]
  rfl

/-- The emulation of the machine on which the program runs changes nothing: if `int` of the emulated machine is that of the compiler
and no operand is unsigned and narrower than `int`, every operator except the shifts has the same type and the same outcome as under
the native policy, for every exception policy. -/
theorem C32_host_partial [Arch] (m : CppCfg) (hm : CppOrdered m) (hi : m.i = Arch.intLg) (T U : Opd)
    (hT : CppListed m T.base) (hU : CppListed m U.base) (sT : T.base.lg < m.i → T.base.signed = true)
    (sU : U.base.lg < m.i → U.base.signed = true) :
    (∀ o, arithTy (.cpp m) o T U = arithTy .native o T U) ∧
    (∀ o, bitwiseTy (.cpp m) o T U = bitwiseTy .native o T U) ∧
    (∀ p o t u, arith (.cpp m) p o T U t u = arith .native p o T U t u) ∧
    (∀ o t u, bitwise (.cpp m) o T U t u = bitwise .native o T U t u) ∧
    (∀ p o t u, Verif.compare (.cpp m) p o T U t u = Verif.compare .native p o T U t u) := by
  have e : ∀ op : BinOp, op ≠ .shl → op ≠ .shr →
      PP.result (.cpp m) op T U = PP.result .native op T U ∧ PP.result (.cpp m) op U T = PP.result .native op U T := by
    intro op h1 h2
    have a : cppResult m T.base U.base = .ret (uac T.base U.base) := by
      rw [C32_result_partial m hm _ _ hT hU sT sU, C32_host_spec m hi]
    have b : cppResult m U.base T.base = .ret (uac U.base T.base) := by
      rw [C32_result_partial m hm _ _ hU hT sU sT, C32_host_spec m hi]
    cases op <;> first | exact ⟨a, b⟩ | exact absurd rfl h1 | exact absurd rfl h2
  refine ⟨fun o => ?_, fun o => ?_, fun p o t u => ?_, fun o t u => ?_, fun p o t u => ?_⟩
  · unfold arithTy; rw [(e o.binOp (by cases o <;> simp [Arith.binOp]) (by cases o <;> simp [Arith.binOp])).1]
  · unfold bitwiseTy; rw [(e o.binOp (by cases o <;> simp [Bitwise.binOp]) (by cases o <;> simp [Bitwise.binOp])).1]
  · unfold arith; rw [(e o.binOp (by cases o <;> simp [Arith.binOp]) (by cases o <;> simp [Arith.binOp])).1]
  · unfold bitwise; rw [(e o.binOp (by cases o <;> simp [Bitwise.binOp]) (by cases o <;> simp [Bitwise.binOp])).1]
  · have c := e .cmp (by simp) (by simp)
    unfold Verif.compare
    cases o <;> simp only [c.1, c.2]

/-- The shifts: the same if the conversion with the type of the count does not change the type of the left operand. -/
theorem C32_host_shift_partial [Arch] (m : CppCfg) (hm : CppOrdered m) (hi : m.i = Arch.intLg) (T U : Opd)
    (hT : CppListed m T.base) (hU : CppListed m U.base) (sT : T.base.lg < m.i → T.base.signed = true)
    (sU : U.base.lg < m.i → U.base.signed = true) (h : uac T.base U.base = promote T.base) :
    shlTy (.cpp m) T U = shlTy .native T U ∧ shrTy (.cpp m) T U = shrTy .native T U ∧
    (∀ p t u, shl (.cpp m) p T U t u = shl .native p T U t u) ∧
    (∀ p t u, shr (.cpp m) p T U t u = shr .native p T U t u) := by
  have a : cppResult m T.base U.base = .ret (promote T.base) := by
    rw [C32_result_partial m hm _ _ hT hU sT sU, C32_host_spec m hi, h]
  have e1 : PP.result (.cpp m) .shl T U = PP.result .native .shl T U := a
  have e2 : PP.result (.cpp m) .shr T U = PP.result .native .shr T U := a
  refine ⟨?_, ?_, fun p t u => ?_, fun p t u => ?_⟩
  · unfold shlTy; rw [e1]
  · unfold shrTy; rw [e2]
  · unfold shl; rw [e1]
  · unfold shr; rw [e2]

section
attribute [local instance] lp64

/-- the machine of the examples: `cpp<8,16,16,32,32>`, as in example/motor.hpp -/
example : cppResult ⟨0, 1, 1, 2, 2⟩ i8 i32 = .ret i32 ∧ cppSpec ⟨0, 1, 1, 2, 2⟩ i8 i32 = i32 ∧
    CppOrdered ⟨0, 1, 1, 2, 2⟩ ∧ CppListed ⟨0, 1, 1, 2, 2⟩ i8 := by decide
example : cppResult ⟨0, 1, 1, 2, 2⟩ i8 u16 = .ret u16 ∧ cppSpec ⟨0, 1, 1, 2, 2⟩ i8 u16 = u16 := by decide
/-- `C32_exact`, `C32_iff`: an unsigned char is harmless beside a long and turns an int unsigned -/
example : CppListed ⟨0, 1, 1, 2, 2⟩ u8 ∧ cppResult ⟨0, 1, 1, 2, 2⟩ u8 i32 = .ret i32 ∧ cppSpec ⟨0, 1, 1, 2, 2⟩ u8 i32 = i32 ∧
    cppResult ⟨0, 1, 1, 2, 2⟩ i16 u8 = .ret u16 ∧ cppSpec ⟨0, 1, 1, 2, 2⟩ i16 u8 = i16 := by decide
/-- `C32_shift_iff`: a count that is not wider leaves the type alone -/
example : cppResult ⟨0, 1, 1, 2, 2⟩ i32 i16 = .ret (cppPromoteSpec ⟨0, 1, 1, 2, 2⟩ i32) ∧
    cppResult ⟨0, 1, 1, 2, 2⟩ i16 i32 ≠ .ret (cppPromoteSpec ⟨0, 1, 1, 2, 2⟩ i16) := by decide
/-- `C32_host_partial`, `C32_host_shift_partial`: `cpp<8,16,32,64,64>` on the usual machine -/
example : CppOrdered ⟨0, 1, 2, 3, 3⟩ ∧ (⟨0, 1, 2, 3, 3⟩ : CppCfg).i = Arch.intLg ∧ CppListed ⟨0, 1, 2, 3, 3⟩ i8 ∧
    CppListed ⟨0, 1, 2, 3, 3⟩ u32 ∧ uac u32 i8 = promote u32 ∧ uac i8 u32 ≠ promote i8 ∧
    arith (.cpp ⟨0, 1, 2, 3, 3⟩) strictException .add (Opd.ofSafe i8) (Opd.ofSafe u32) (-1) 2 =
      arith .native strictException .add (Opd.ofSafe i8) (Opd.ofSafe u32) (-1) 2 := by decide +kernel

/-- `unsigned char` operands: `unsigned char + signed char` is computed in `unsigned int` instead of `int`, and
`safe<uint8_t>(1) - safe<uint8_t>(2)` throws although both the C++ rules and the mathematical value give -1 -/
theorem C32_uchar_refuted :
    cppResult ⟨0, 1, 1, 2, 2⟩ u8 i8 = .ret u16 ∧ cppSpec ⟨0, 1, 1, 2, 2⟩ u8 i8 = i16 ∧
    arith (.cpp ⟨0, 1, 1, 2, 2⟩) strictException .sub (Opd.ofSafe u8) (Opd.ofSafe u8) 1 2 =
      .thrown .negative_overflow_error := by decide +kernel

/-- the emulation of the machine on which the program runs is not the native policy: `unsigned char` operands, and a shift by a wider
count, which is refused under the native policy and carried out in the type of the count under the emulation -/
theorem C32_host_refuted :
    arith (.cpp ⟨0, 1, 2, 3, 3⟩) strictException .sub (Opd.ofSafe u8) (Opd.ofSafe u8) 1 2 = .thrown .negative_overflow_error ∧
    arith .native strictException .sub (Opd.ofSafe u8) (Opd.ofSafe u8) 1 2 = .ret (-1) ∧
    shl (.cpp ⟨0, 1, 2, 3, 3⟩) strictException (Opd.ofSafe i32) (Opd.ofSafe i64) 1 40 = .ret 1099511627776 ∧
    shl .native strictException (Opd.ofSafe i32) (Opd.ofSafe i64) 1 40 = .thrown .shift_too_large := by decide +kernel

/-- a host type whose width the machine does not have ranks above all others: on `cpp<8,8,32,32,64>`,
`int16_t + int64_t` is computed in `int16_t` -/
theorem C32_unlisted_refuted :
    cppResult ⟨0, 0, 2, 2, 3⟩ i16 i64 = .ret i16 ∧ cppSpec ⟨0, 0, 2, 2, 3⟩ i16 i64 = i64 := by decide

/-- the type of a shift should be the promoted type of the left operand; the policy converts both operands -/
theorem C32_shift_refuted :
    PP.result (.cpp ⟨0, 1, 2, 3, 3⟩) .shl (Opd.ofSafe i32) (Opd.ofSafe i64) = .ret i64 ∧
    cppPromoteSpec ⟨0, 1, 2, 3, 3⟩ i32 = i32 := by decide +kernel

/-- an unlisted signed type with a listed wider unsigned one selects the class `std::make_signed<...>`, which is not an
integer type: the expression does not compile -/
theorem C32_unusable_refuted :
    cppResult ⟨0, 0, 2, 2, 3⟩ u64 i16 = .fault .illFormed ∧ cppSpec ⟨0, 0, 2, 2, 3⟩ u64 i16 = u64 := by decide
end
end Verif.Props
