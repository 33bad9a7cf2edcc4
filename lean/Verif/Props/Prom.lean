import Verif.Proofs.Prom
import Verif.Props.CppPolicy
import Verif.Props.Widen

/-!
Property C101: programs under promotion policies that give the same types; the emulation of the machine on which the program runs.
-/

namespace Verif.Props
open Spec Lang

section
variable [Arch]

/-- Replace the promotion policies of a program by others that give the operators it applies the same types on the base types it
uses: every execution is the same, in outcome, variables, input and output, exceptions caught, whatever the exception policies. -/
theorem C101_same {N : Names} {g : N.P → PP} {O : Op2 → Prop} {K : ITy → Prop} (hg : AgreeOn N g O K) {n : Nat}
    (Γ : Fin n → PTy N) (hΓ : ∀ i, K (Γ i).opd.base) (p : LStmt N n) (hp : SUses O K p) (f : Nat) (s : LState n) :
    (promS g p).exec (fun i => promT g (Γ i)) f s = p.exec Γ f s :=
  exec_prom hg hΓ f p s hp

/-- The same in every order of evaluation. -/
theorem C101_order {N : Names} {g : N.P → PP} {O : Op2 → Prop} {K : ITy → Prop} (hg : AgreeOn N g O K) {n : Nat}
    (Γ : Fin n → PTy N) (hΓ : ∀ i, K (Γ i).opd.base) (p : LStmt N n) (hp : SUses O K p) (s : LState n) (r : Out Unit) (s' : LState n) :
    AnyS (fun i => promT g (Γ i)) (promS g p) s r s' ↔ AnyS Γ p s r s' :=
  anyS_prom_iff hg hΓ hp

private theorem both {N : Names} {g : N.P → PP} {O : Op2 → Prop} {K : ITy → Prop} (hg : AgreeOn N g O K) {n : Nat}
    (Γ : Fin n → PTy N) (hΓ : ∀ i, K (Γ i).opd.base) (p : LStmt N n) (hp : SUses O K p) :
    (∀ f s, (promS g p).exec (fun i => promT g (Γ i)) f s = p.exec Γ f s) ∧
    ∀ s r s', AnyS (fun i => promT g (Γ i)) (promS g p) s r s' ↔ AnyS Γ p s r s' :=
  ⟨C101_same hg Γ hΓ p hp, C101_order hg Γ hΓ p hp⟩

private theorem int_listed {m : CppCfg} (hi : m.i = Arch.intLg) : CppListed m tInt := Or.inr (Or.inr (Or.inl hi.symm))

private theorem promote_cases (B : ITy) : promote B = tInt ∨ promote B = B := by
  unfold promote; split
  · exact Or.inl rfl
  · exact Or.inr rfl

private theorem uac_cases (B C : ITy) : uac B C = tInt ∨ uac B C = B ∨ uac B C = C := by
  have h : uac B C = promote B ∨ uac B C = promote C := by
    unfold uac; dsimp only; split_ifs <;> simp
  rcases h with h | h <;> rw [h]
  · rcases promote_cases B with e | e <;> rw [e] <;> simp
  · rcases promote_cases C with e | e <;> rw [e] <;> simp

private theorem cTy_cases (o : Op2) (B C : ITy) : o.cTy B C = tInt ∨ o.cTy B C = B ∨ o.cTy B C = C := by
  have h : promote B = tInt ∨ promote B = B ∨ promote B = C := (promote_cases B).elim Or.inl (fun e => Or.inr (Or.inl e))
  cases o with
  | ar a => exact uac_cases B C
  | bit b => exact uac_cases B C
  | shl => exact h
  | shr => exact h

private theorem native_cTy (o : Op2) (B C : ITy) : nativeResult (opName o) B C = o.cTy B C := by
  cases o with
  | ar a => cases a <;> rfl
  | bit b => cases b <;> rfl
  | shl => rfl
  | shr => rfl

private theorem agree_native {N : Names} (hn : Native N) (m : CppCfg) {O : Op2 → Prop} {K : ITy → Prop} (hadd : O (.ar .add))
    (hsub : O (.ar .sub)) (hint : K tInt) (hK : ∀ B C, K B → K C → cppResult m B C = .ret (uac B C))
    (hO : ∀ o B C, O o → K B → K C → o.cTy B C = uac B C) : AgreeOn N (fun _ => .cpp m) O K where
  op q o T U ho hT hU := by
    rw [hn q]
    show cppResult m T.base U.base = .ret (nativeResult (opName o) T.base U.base)
    rw [hK _ _ hT hU, native_cTy, hO o _ _ ho hT hU]
  cmp q T U hT hU := by
    rw [hn q]
    exact hK _ _ hT hU
  closed q o T U R ho hT hU h := by
    rw [hn q] at h
    cases h
    rw [native_cTy]
    rcases cTy_cases o T.base U.base with e | e | e <;> rw [e] <;> assumption
  builtin o B C ho hB hC := by rcases cTy_cases o B C with e | e | e <;> rw [e] <;> assumption
  promoted B hB := by rcases promote_cases B with e | e <;> rw [e] <;> assumption
  int := hint
  add := hadd
  sub := hsub

/-- A program with native promotion that uses no unsigned type narrower than `int` and no shifts: under the emulation of the machine on
which it runs, every execution is the same, in the order of the model and in any other. -/
theorem C101_host_partial {N : Names} (hn : Native N) (m : CppCfg) (hm : CppOrdered m) (hi : m.i = Arch.intLg) {n : Nat}
    (Γ : Fin n → PTy N) (hΓ : ∀ i, HostTy m (Γ i).opd.base) (p : LStmt N n) (hp : SUses NoShift (HostTy m) p) :
    (∀ f s, (promS (fun _ => .cpp m) p).exec (fun i => promT (fun _ => .cpp m) (Γ i)) f s = p.exec Γ f s) ∧
    ∀ s r s', AnyS (fun i => promT (fun _ => .cpp m) (Γ i)) (promS (fun _ => .cpp m) p) s r s' ↔ AnyS Γ p s r s' := by
  refine both (agree_native hn m ⟨by simp, by simp⟩ ⟨by simp, by simp⟩ ⟨int_listed hi, fun _ => rfl⟩ (fun B C hB hC => ?_)
    (fun o B C ho _ _ => ?_)) Γ hΓ p hp
  · rw [C32_result_partial m hm _ _ hB.1 hC.1 hB.2 hC.2, C32_host_spec m hi]
  · cases o with
    | ar a => rfl
    | bit b => rfl
    | shl => exact absurd rfl ho.1
    | shr => exact absurd rfl ho.2

/-- The same for programs with shifts, if all types are signed and not wider than `int`. -/
theorem C101_small_partial {N : Names} (hn : Native N) (m : CppCfg) (hm : CppOrdered m) (hi : m.i = Arch.intLg) {n : Nat}
    (Γ : Fin n → PTy N) (hΓ : ∀ i, SmallTy m (Γ i).opd.base) (p : LStmt N n) (hp : SUses (fun _ => True) (SmallTy m) p) :
    (∀ f s, (promS (fun _ => .cpp m) p).exec (fun i => promT (fun _ => .cpp m) (Γ i)) f s = p.exec Γ f s) ∧
    ∀ s r s', AnyS (fun i => promT (fun _ => .cpp m) (Γ i)) (promS (fun _ => .cpp m) p) s r s' ↔ AnyS Γ p s r s' := by
  have small : ∀ {B}, SmallTy m B → promote B = tInt := fun {B} h => by
    unfold promote
    split
    · rfl
    · obtain ⟨_, h1, h2⟩ := h
      cases B
      simp only [tInt, ITy.mk.injEq] at *
      exact ⟨h1, by omega⟩
  have wide : ∀ {B C}, SmallTy m B → SmallTy m C → uac B C = tInt := fun {B C} hB hC => by
    unfold uac
    rw [small hB, small hC]
    simp
  refine both (agree_native hn m trivial trivial ⟨int_listed hi, rfl, by rw [hi]; exact Nat.le_refl _⟩ (fun B C hB hC => ?_)
    (fun o B C _ hB hC => ?_)) Γ hΓ p hp
  · rw [C32_result_partial m hm _ _ hB.1 hC.1 (fun _ => hB.2.1) (fun _ => hC.2.1), C32_host_spec m hi]
  · cases o with
    | ar a => rfl
    | bit b => rfl
    | shl => exact (small hB).trans (wide hB hC).symm
    | shr => exact (small hB).trans (wide hB hC).symm

/-- Only the width of `int` of an emulated machine matters: a program that uses types which both machines have runs alike under the
emulation of either, if their `int` has the same width; shifts and unsigned types included. -/
theorem C101_machines {N : Names} (m m' : CppCfg) (hN : ∀ q, N.prom q = .cpp m) (hm : CppOrdered m) (hm' : CppOrdered m')
    (hi : m'.i = m.i) (ht : CppListed m tInt ∧ CppListed m' tInt) {n : Nat} (Γ : Fin n → PTy N)
    (hΓ : ∀ i, CppListed m (Γ i).opd.base ∧ CppListed m' (Γ i).opd.base) (p : LStmt N n)
    (hp : SUses (fun _ => True) (fun B => CppListed m B ∧ CppListed m' B) p) :
    (∀ f s, (promS (fun _ => .cpp m') p).exec (fun i => promT (fun _ => .cpp m') (Γ i)) f s = p.exec Γ f s) ∧
    ∀ s r s', AnyS (fun i => promT (fun _ => .cpp m') (Γ i)) (promS (fun _ => .cpp m') p) s r s' ↔ AnyS Γ p s r s' := by
  have spec : ∀ B C, cppSpec m' B C = cppSpec m B C := fun B C => by unfold cppSpec cppPromoteSpec; rw [hi]
  have same : ∀ B C, (CppListed m B ∧ CppListed m' B) → (CppListed m C ∧ CppListed m' C) → cppResult m' B C = cppResult m B C := by
    intro B C hB hC
    rw [C32_exact m hm B C hB.1 hC.1, C32_exact m' hm' B C hB.2 hC.2, spec, hi]
  have cases2 : ∀ B C, cppSpec m B C = ⟨true, m.i⟩ ∨ cppSpec m B C = B ∨ cppSpec m B C = C := by
    intro B C
    have h : cppSpec m B C = cppPromoteSpec m B ∨ cppSpec m B C = cppPromoteSpec m C := by
      unfold cppSpec cppConvSpec; split_ifs <;> simp
    have k : ∀ D, cppPromoteSpec m D = ⟨true, m.i⟩ ∨ cppPromoteSpec m D = D := fun D => by unfold cppPromoteSpec; split <;> simp
    rcases h with h | h <;> rw [h]
    · rcases k B with e | e <;> rw [e] <;> simp
    · rcases k C with e | e <;> rw [e] <;> simp
  have il : ∀ b, CppListed m ⟨b, m.i⟩ ∧ CppListed m' ⟨b, m.i⟩ := fun b => ⟨Or.inr (Or.inr (Or.inl rfl)), Or.inr (Or.inr (Or.inl hi.symm))⟩
  refine both (O := fun _ => True) (K := fun B => CppListed m B ∧ CppListed m' B) ⟨fun q o T U _ hT hU => ?_, fun q T U hT hU => ?_,
    fun q o T U R _ hT hU h => ?_, fun o B C _ hB hC => ?_, fun B hB => ?_, ht, trivial, trivial⟩ Γ hΓ p hp
  · rw [hN q]; exact same _ _ hT hU
  · rw [hN q]; exact same _ _ hT hU
  · rw [hN q] at h
    have h : cppResult m T.base U.base = .ret R := h
    rw [C32_exact m hm _ _ hT.1 hU.1] at h
    cases h
    split
    · exact il false
    · rcases cases2 T.base U.base with e | e | e <;> rw [e]
      · exact il true
      · exact hT
      · exact hU
  · rcases cTy_cases o B C with e | e | e <;> rw [e] <;> assumption
  · rcases promote_cases B with e | e <;> rw [e] <;> assumption

end

namespace Prom
attribute [local instance] lp64

/-- the usual machine, `cpp<8, 16, 32, 64, 64>` -/
@[reducible] def host : CppCfg := ⟨0, 1, 2, 3, 3⟩

/-- `C101_host_partial`: the loop of `Widen.squares` with an `int` and a `long` -/
example (f : Nat) (s : LState 2) :
    (promS (fun _ => .cpp host) Widen.squares).exec (fun i => promT (fun _ => .cpp host) (Widen.Γ' i)) f s =
      Widen.squares.exec Widen.Γ' f s :=
  (C101_host_partial Widen.native host (by decide) rfl Widen.Γ'
    (fun | 0 => ⟨by decide, by decide⟩ | 1 => ⟨by decide, by decide⟩) Widen.squares
    ⟨⟨⟨trivial, by decide, by decide⟩, ⟨⟨by decide, by decide⟩, ⟨by decide, by decide⟩, trivial, trivial⟩, trivial⟩, trivial⟩).1 f s

/-- an `int` and a `short` -/
def Γs : Fin 2 → PTy Widen.names
  | 0 => ⟨Opd.ofSafe i32, some (), some ()⟩
  | 1 => ⟨Opd.ofSafe i16, some (), some ()⟩

/-- `x <<= y; std::cout << (x >> 2) + y;` -/
def shifts : LStmt Widen.names 2 :=
  .seq (.opAssign .shl 0 (.var 1)) (.output (.bin (.ar .add) (.bin .shr (.var 0) (.const i32 2)) (.var 1)))

/-- `C101_small_partial` -/
example (f : Nat) (s : LState 2) :
    (promS (fun _ => .cpp host) shifts).exec (fun i => promT (fun _ => .cpp host) (Γs i)) f s = shifts.exec Γs f s :=
  (C101_small_partial Widen.native host (by decide) rfl Γs
    (fun | 0 => ⟨by decide, rfl, by decide⟩ | 1 => ⟨by decide, rfl, by decide⟩) shifts
    ⟨⟨trivial, trivial⟩, trivial, ⟨trivial, trivial, by decide, rfl, by decide⟩, trivial⟩).1 f s

/-- and the program does something: 3 << 4, printed as (48 >> 2) + 4 -/
example : (shifts.exec Γs 9 ⟨fun | 0 => 3 | 1 => 4, ⟨[], false, false⟩, [], 0⟩).map (fun r => (r.1, r.2.out)) =
    some (.ret (), ['1', '6']) := by decide +kernel

/-- the emulation of the usual machine -/
@[reducible] def names : Names := ⟨Unit, Unit, inferInstance, inferInstance, fun _ => .cpp host, fun _ => strictException⟩

/-- an `unsigned char` and a `long long` -/
def Γm : Fin 2 → PTy names
  | 0 => ⟨Opd.ofSafe u8, some (), some ()⟩
  | 1 => ⟨Opd.ofSafe i64, some (), some ()⟩

/-- `std::cout << (x << y);` -/
def wideShift : LStmt names 2 := .output (.bin .shl (.var 0) (.var 1))

/-- `C101_machines`: a machine with 32 bit `long` -/
example (f : Nat) (s : LState 2) :
    (promS (fun _ => .cpp ⟨0, 1, 2, 2, 3⟩) wideShift).exec (fun i => promT (fun _ => .cpp ⟨0, 1, 2, 2, 3⟩) (Γm i)) f s =
      wideShift.exec Γm f s :=
  (C101_machines host ⟨0, 1, 2, 2, 3⟩ (fun _ => rfl) (by decide) (by decide) rfl (by decide) Γm
    (fun | 0 => by decide | 1 => by decide) wideShift ⟨trivial, trivial, trivial⟩).1 f s

/-- 3 << 40 is computed in `long long` -/
example : (wideShift.exec Γm 9 ⟨fun | 0 => 3 | 1 => 40, ⟨[], false, false⟩, [], 0⟩).map (fun r => (r.1, r.2.out)) =
    some (.ret (), "3298534883328".toList) := by decide +kernel
end Prom

section
attribute [local instance] lp64

/-- The restrictions are necessary. The emulation of the machine on which the program runs throws at `x - x - 1`, for an
`unsigned char`, where native promotion gives -1; -/
theorem C101_refuted_unsigned :
    let e : LExpr Widen.names 1 := .bin (.ar .sub) (.bin (.ar .sub) (.var 0) (.var 0)) (.const i32 1)
    let Γ : Fin 1 → PTy Widen.names := fun _ => ⟨Opd.ofSafe u8, some (), some ()⟩
    e.eval Γ (fun _ => 1) = .ret (-1) ∧
    (promE (fun _ => .cpp Prom.host) e).eval (fun i => promT (fun _ => .cpp Prom.host) (Γ i)) (fun _ => 1) =
      .thrown .negative_overflow_error := by decide +kernel

/-- it shifts in the type of the count; -/
theorem C101_refuted_shift :
    let e : LExpr Widen.names 1 := .bin .shl (.const i32 1) (.var 0)
    let Γ : Fin 1 → PTy Widen.names := fun _ => ⟨Opd.ofSafe i64, some (), some ()⟩
    e.eval Γ (fun _ => 40) = .thrown .shift_too_large ∧
    (promE (fun _ => .cpp Prom.host) e).eval (fun i => promT (fun _ => .cpp Prom.host) (Γ i)) (fun _ => 40) =
      .ret 1099511627776 := by decide +kernel

/-- and two machines with the same `int` differ on types that one of them does not have. -/
theorem C101_refuted_listed :
    let e : LExpr Prom.names 2 := .bin (.ar .add) (.var 0) (.var 1)
    let Γ : Fin 2 → PTy Prom.names := fun i => ⟨Opd.ofSafe (if i = 0 then i16 else i64), some (), some ()⟩
    e.eval Γ (fun _ => 20000) = .ret 40000 ∧
    (promE (fun _ => .cpp ⟨0, 0, 2, 2, 3⟩) e).eval (fun i => promT (fun _ => .cpp ⟨0, 0, 2, 2, 3⟩) (Γ i)) (fun _ => 20000) =
      .thrown .positive_overflow_error := by decide +kernel

end
end Verif.Props
