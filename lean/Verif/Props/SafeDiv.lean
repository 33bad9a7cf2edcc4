import Verif.Props.Safe2

/-!
Properties C24, C25: division and modulus of safe integers.
-/

namespace Verif.Props
open Spec
section
variable [Arch]

omit [Arch] in
private theorem notLit {T : Opd} (h : NotLit T) : ∀ b, T.kind ≠ .lit b := by
  intro b hb; rcases h with h | h <;> rw [h] at hb <;> cases hb

private theorem litsOk {R : ITy} {T U : Opd} (hT : NotLit T) (hU : NotLit U) : LitsOk R T U :=
  ⟨litOk_not_lit (notLit hT), litOk_not_lit (notLit hU)⟩

omit [Arch] in
private theorem ret_bind {α β : Type} (a : α) (f : α → Out β) : (Out.ret a >>= f) = f a := rfl

omit [Arch] in
private theorem quotIn_exact (R : ITy) (t u : Int) :
    ExactOrThrows (quotIn R t u) (t.tdiv u) ∧ (u = 0 → ∃ e, quotIn R t u = .thrown e) := by
  unfold quotIn
  split
  · exact ⟨Or.inr (Or.inl ⟨_, rfl⟩), fun _ => ⟨_, rfl⟩⟩
  · exact ⟨Or.inr (Or.inl ⟨_, rfl⟩), fun _ => ⟨_, rfl⟩⟩
  · split_ifs
    · exact ⟨Or.inr (Or.inl ⟨_, rfl⟩), fun _ => ⟨_, rfl⟩⟩
    · exact ⟨Or.inr (Or.inl ⟨_, rfl⟩), fun _ => ⟨_, rfl⟩⟩
    · exact ⟨Or.inl rfl, fun h => absurd h ‹_›⟩

omit [Arch] in
private theorem remIn_exact (R : ITy) (t u : Int) :
    ExactOrThrows (remIn R t u) (t.tmod u) ∧ (u = 0 → ∃ e, remIn R t u = .thrown e) := by
  unfold remIn
  split
  · exact ⟨Or.inr (Or.inl ⟨_, rfl⟩), fun _ => ⟨_, rfl⟩⟩
  · exact ⟨Or.inr (Or.inl ⟨_, rfl⟩), fun _ => ⟨_, rfl⟩⟩
  · split_ifs
    · exact ⟨Or.inr (Or.inl ⟨_, rfl⟩), fun _ => ⟨_, rfl⟩⟩
    · exact ⟨Or.inl rfl, fun h => absurd h ‹_›⟩

/-! ### C24 division -/

theorem div_native {p : EP} (hp : p.ae = .throw) {T U : Opd} (hT : T.Wf) (hU : U.Wf) {t u : Int}
    (ht : T.Has t) (hu : U.Has u) :
    arith .native p .div T U t u = quotIn (uac T.base U.base) t u ∨
    (¬ LitsOk (uac T.base U.base) T U ∧ arith .native p .div T U t u = .fault .illFormed) := by
  have hR := uac_ok hT.1 hU.1
  obtain ⟨B, e, _, _, h⟩ := runDiv_throw hp hR hT hU (fun _ => (native_fits hT hU).2)
  rw [tempBase_self hR (uac_digits_left _ _) (uac_digits_right _ _)] at e
  obtain rfl := Out.ret.inj e
  have h := h ht hu (Or.inl rfl)
  show runDiv p (uac T.base U.base) T U t u = _ ∨ _ ∧ runDiv p (uac T.base U.base) T U t u = _
  rw [h]
  split
  · rename_i g; exact Or.inr ⟨g.2, rfl⟩
  · exact Or.inl rfl

/-- Native promotion: division is exact, throws, or does not compile; a zero divisor never gives a value. -/
theorem C24_native_exact (p : EP) (hp : p.ae = .throw) (T U : Opd) (hT : T.Wf) (hU : U.Wf) (t u : Int)
    (ht : T.Has t) (hu : U.Has u) :
    ExactOrThrows (arith .native p .div T U t u) (t.tdiv u) ∧ (u = 0 → ∀ v, arith .native p .div T U t u ≠ .ret v) := by
  rcases div_native hp hT hU ht hu with h | ⟨_, h⟩
  · rw [h]
    refine ⟨(quotIn_exact _ _ _).1, fun h0 v => ?_⟩
    obtain ⟨e, he⟩ := (quotIn_exact (uac T.base U.base) t u).2 h0
    rw [he]; simp
  · rw [h]; exact ⟨Or.inr (Or.inr rfl), fun _ v => by simp⟩

/-- Native promotion, operands not literals: the outcome is that of division in the type of the built-in expression:
convert, report a zero divisor, report overflow, else the truncated quotient. -/
theorem C24_native (p : EP) (hp : p.ae = .throw) (T U : Opd) (hT : T.Wf) (hU : U.Wf) (nT : NotLit T) (nU : NotLit U)
    (t u : Int) (ht : T.Has t) (hu : U.Has u) :
    arith .native p .div T U t u = quotIn (uac T.base U.base) t u :=
  (div_native hp hT hU ht hu).resolve_right (fun h => h.1 (litsOk nT nU))

private theorem div_policy {pp : PP} {p : EP} (hp : p.ae = .throw) {T U : Opd} (hT : T.Wf) (hU : U.Wf) {R : ITy}
    (hR : R.Ok) (hres : pp.result .div T U = .ret R)
    (h1 : (U.lo ≤ 0 ∧ 0 ≤ U.hi) ∨ FitsIn R U) {t u : Int}
    (h2 : ∀ B, tempBase R T U = .ret B → B = R ∨ R.In (t.tdiv u)) (ht : T.Has t) (hu : U.Has u) :
    ExactOrThrows (arith pp p .div T U t u) (t.tdiv u) ∧ (u = 0 → ∀ v, arith pp p .div T U t u ≠ .ret v) := by
  obtain ⟨B, e, _, _, h⟩ := runDiv_throw hp hR hT hU (fun hx => by
    rcases h1 with h1 | h1
    · rw [divExc_zero h1.1 h1.2] at hx; cases hx
    · exact h1)
  have h := h ht hu (h2 B e)
  unfold arith
  rw [show Arith.binOp .div = .div from rfl, hres, ret_bind]
  show ExactOrThrows (runDiv p R T U t u) _ ∧ (_ → ∀ v, runDiv p R T U t u ≠ _)
  rw [h]
  split
  · exact ⟨Or.inr (Or.inr rfl), fun _ v => by simp⟩
  · refine ⟨(quotIn_exact _ _ _).1, fun h0 v => ?_⟩
    obtain ⟨e, he⟩ := (quotIn_exact B t u).2 h0
    rw [he]; simp

/-- Any promotion policy that gives the type `R`: division is exact or throws, a zero divisor always throws (or the
program does not compile), provided that (1) the divisor range contains zero or fits `R` and (2) `R` is as wide as
both operand types or can represent every quotient of operand values. Without (1) or (2) the claim is false, see
`C24_automatic_refuted`, `C24_cpp_refuted`. -/
theorem C24_policy_partial (pp : PP) (p : EP) (hp : p.ae = .throw) (T U : Opd) (hT : T.Wf) (hU : U.Wf) (R : ITy)
    (hR : R.Ok) (hres : pp.result .div T U = .ret R)
    (h1 : (U.lo ≤ 0 ∧ 0 ≤ U.hi) ∨ FitsIn R U)
    (h2 : (T.base.digits ≤ R.digits ∧ U.base.digits ≤ R.digits) ∨ ∀ x y, T.Has x → U.Has y → y ≠ 0 → R.In (x.tdiv y))
    (t u : Int) (ht : T.Has t) (hu : U.Has u) :
    ExactOrThrows (arith pp p .div T U t u) (t.tdiv u) ∧ (u = 0 → ∀ v, arith pp p .div T U t u ≠ .ret v) := by
  refine div_policy hp hT hU hR hres h1 ?_ ht hu
  intro B e
  rcases h2 with h2 | h2
  · rw [tempBase_self hR h2.1 h2.2] at e; exact Or.inl (Out.ret.inj e).symm
  · right
    by_cases h0 : u = 0
    · rw [h0, Int.tdiv_zero]; exact ITy.in_zero R
    · exact h2 t u ht hu h0

/-- Automatic promotion: division is exact or throws when both operand types fit the widest type and the divisor range
contains zero or fits the result type. -/
theorem C24_automatic_partial (p : EP) (hp : p.ae = .throw) (T U : Opd) (hT : T.Wf) (hU : U.Wf) (R : ITy)
    (hres : PP.automatic.result .div T U = .ret R)
    (hw : (∀ x, T.Has x ∨ U.Has x → tIntMax.In x) ∨ (T.base.signed = false ∧ U.base.signed = false))
    (h1 : (U.lo ≤ 0 ∧ 0 ≤ U.hi) ∨ FitsIn R U)
    (t u : Int) (ht : T.Has t) (hu : U.Has u) :
    ExactOrThrows (arith .automatic p .div T U t u) (t.tdiv u) ∧
    (u = 0 → ∀ v, arith .automatic p .div T U t u ≠ .ret v) := by
  have hl : T.lo ≤ T.hi := hT.2.2.2.1
  have hl' : U.lo ≤ U.hi := hU.2.2.2.1
  have hf : (Fits (autoTemp T U) T ∧ Fits (autoTemp T U) U) ∧
      (∀ x y, T.Has x → U.Has y → y ≠ 0 → (autoTemp T U).In (x.tdiv y) ∨
        ((autoTemp T U).max < x.tdiv y)) := by
    constructor
    · unfold autoTemp
      split
      · rename_i g
        exact ⟨⟨(hT.2.2.1.widen (U := tUIntMax) (by rw [g.1]; rfl) hT.1).2, fun h => by cases h⟩,
          ⟨(hU.2.2.1.widen (U := tUIntMax) (by rw [g.2]; rfl) hU.1).2, fun h => by cases h⟩⟩
      · rename_i g
        have hw := hw.resolve_right g
        exact ⟨⟨(hw _ (Or.inl ⟨hl, le_refl _⟩)).2, fun _ => (hw _ (Or.inl ⟨le_refl _, hl⟩)).1⟩,
          ⟨(hw _ (Or.inr ⟨hl', le_refl _⟩)).2, fun _ => (hw _ (Or.inr ⟨le_refl _, hl'⟩)).1⟩⟩
    · intro x y hx hy h0
      have ix : (autoTemp T U).In x ∧ (autoTemp T U).In y := by
        unfold autoTemp
        split
        · rename_i g
          exact ⟨(hT.has_in hx).widen (by rw [g.1]; rfl) hT.1, (hU.has_in hy).widen (by rw [g.2]; rfl) hU.1⟩
        · rename_i g
          have hw := hw.resolve_right g
          exact ⟨hw _ (Or.inl hx), hw _ (Or.inr hy)⟩
      by_cases hov : (autoTemp T U).signed = true ∧ y = -1 ∧ x = (autoTemp T U).min
      · right
        rw [hov.2.1, hov.2.2]
        have e := ITy.min_eq (autoTemp T U); rw [hov.1] at e; simp at e
        rw [show (-1 : Int) = -(1 : Int) from rfl, Int.tdiv_neg, Int.tdiv_one]
        omega
      · left
        exact tdiv_in ix.1 ix.2 h0 hov
  obtain ⟨⟨fT, fU⟩, hq⟩ := hf
  have hres' : (do autoEnds (autoTemp T U) (← resItv (divModItv itvDiv crDiv) (autoTemp T U) T U)) = .ret R := hres
  obtain ⟨ri, e, pl, pu, _⟩ := divItv_total (R := autoTemp T U)
    (t := ⟨castTo (autoTemp T U) T.lo, castTo (autoTemp T U) T.hi⟩)
    (u := ⟨castTo (autoTemp T U) U.lo, castTo (autoTemp T U) U.hi⟩) castTo_proper castTo_proper castTo_proper castTo_proper
  rw [show resItv (divModItv itvDiv crDiv) (autoTemp T U) T U = .ret ri from resItv_of (f := divItv) hT hU e,
    ret_bind] at hres'
  obtain ⟨S, eS, _, hok, hS⟩ := autoEnds_spec (autoTemp_cases T U) pl pu
  rw [hres'] at eS
  obtain rfl := Out.ret.inj eS
  have hBR : R.signed = (autoTemp T U).signed := ‹_›
  refine div_policy hp hT hU hok hres h1 ?_ ht hu
  intro B eB
  by_cases h0 : u = 0
  · right; rw [h0, Int.tdiv_zero]; exact ITy.in_zero R
  obtain ⟨ri', e', _, _, hb⟩ := divItv_contains fT fU ht hu h0
  rw [e] at e'
  obtain rfl := Out.ret.inj e'
  rcases hq t u ht hu h0 with g | g
  · right; exact hS _ (held_of_between hb) g
  · left
    -- the smallest value divided by -1: the result type is the widest one
    have hm : R.In (autoTemp T U).max := by
      refine hS _ ⟨fun v hv => ?_, fun v hv => ?_⟩ (autoTemp T U).in_max
      · rw [hv] at pl; exact pl.2
      · have := hb.2; rw [hv] at this pu
        have h3 : t.tdiv u ≤ v := this
        have h4 := pu.2; omega
    have hlg : (autoTemp T U).lg = Arch.maxLg := by
      rcases autoTemp_cases T U with h | h <;> rw [h] <;> rfl
    have hRl : Arch.maxLg ≤ R.lg := by
      rw [← hlg]
      have := hm.2
      unfold ITy.max at this
      have h5 : (2 : Int) ^ (autoTemp T U).digits ≤ 2 ^ R.digits := by omega
      have h6 : 2 ^ (autoTemp T U).digits ≤ 2 ^ R.digits := by exact_mod_cast h5
      have h7 := (Nat.pow_le_pow_iff_right (by omega)).1 h6
      unfold ITy.digits ITy.bits at h7
      rw [hBR] at h7
      have h8 : 2 ^ (autoTemp T U).lg ≤ 2 ^ R.lg := by
        have := Nat.two_pow_pos R.lg
        have := Nat.two_pow_pos (autoTemp T U).lg
        split at h7 <;> omega
      exact (Nat.pow_le_pow_iff_right (by omega)).1 h8
    obtain ⟨B', eB', hs', hok', hl'⟩ := tempBase_spec hok T U
    rw [eB] at eB'
    obtain rfl := Out.ret.inj eB'
    have : B.lg ≤ Arch.maxLg := hok'
    have : R.lg ≤ Arch.maxLg := hok
    rcases B with ⟨bs, bl⟩
    rcases R with ⟨rs, rl⟩
    dsimp only at *
    rw [hs', show bl = rl by omega]

/-! ### C25 modulus -/

theorem mod_native {p : EP} (hp : p.ae = .throw) {T U : Opd} (hT : T.Wf) (hU : U.Wf) {t u : Int}
    (ht : T.Has t) (hu : U.Has u)
    (hx : (uac T.base U.base).signed = true → t = (uac T.base U.base).min → u ≠ (uac T.base U.base).min ∧
      (u = -1 → U.lo ≤ 0 ∧ 0 ≤ U.hi)) :
    arith .native p .mod T U t u = remIn (uac T.base U.base) t u ∨
    (¬ LitsOk (uac T.base U.base) T U ∧ arith .native p .mod T U t u = .fault .illFormed) := by
  have hR := uac_ok hT.1 hU.1
  obtain ⟨B, e, _, _, h⟩ := runMod_throw hp hR hT hU (fun _ => native_fits hT hU)
  rw [tempBase_self hR (uac_digits_left _ _) (uac_digits_right _ _)] at e
  obtain rfl := Out.ret.inj e
  have h := h ht hu (fun g => (hx g.1 g.2.1).1 g.2.2)
    (fun g g' => by
      have := (hx g'.1 g'.2.1).2 g'.2.2
      rw [modExc_zero this.1 this.2] at g; cases g)
    (fun g _ => tmod_in g)
  show runMod p (uac T.base U.base) T U t u = _ ∨ _ ∧ runMod p (uac T.base U.base) T U t u = _
  rw [h]
  split
  · rename_i g; exact Or.inr ⟨g.2, rfl⟩
  · exact Or.inl rfl

/-- Native promotion: the remainder is exact, or an exception is thrown, or the program does not compile, except that for
a signed type the dividend `min` is excluded with divisor `min` (see `C25_min_refuted`) and with divisor `-1` when
the divisor range does not contain zero (see `C25_ub_refuted`). -/
theorem C25_native_partial (p : EP) (hp : p.ae = .throw) (T U : Opd) (hT : T.Wf) (hU : U.Wf)
    (t u : Int) (ht : T.Has t) (hu : U.Has u)
    (hx : (uac T.base U.base).signed = true → t = (uac T.base U.base).min → u ≠ (uac T.base U.base).min ∧
      (u = -1 → U.lo ≤ 0 ∧ 0 ≤ U.hi)) :
    ExactOrThrows (arith .native p .mod T U t u) (t.tmod u) ∧
    (u = 0 → ∀ v, arith .native p .mod T U t u ≠ .ret v) ∧
    (NotLit T → NotLit U → arith .native p .mod T U t u = remIn (uac T.base U.base) t u) := by
  rcases mod_native hp hT hU ht hu hx with h | ⟨l, h⟩
  · rw [h]
    refine ⟨(remIn_exact _ _ _).1, fun h0 v => ?_, fun _ _ => rfl⟩
    obtain ⟨e, he⟩ := (remIn_exact (uac T.base U.base) t u).2 h0
    rw [he]; simp
  · rw [h]
    exact ⟨Or.inr (Or.inr rfl), fun _ v => by simp, fun a b => absurd (litsOk a b) l⟩

/-- Any promotion policy that gives the type `R`, when `R` is at least as wide as both operand types, with the same two
exclusions. -/
theorem C25_policy_partial (pp : PP) (p : EP) (hp : p.ae = .throw) (T U : Opd) (hT : T.Wf) (hU : U.Wf) (R : ITy)
    (hR : R.Ok) (hres : pp.result .mod T U = .ret R)
    (hw : T.base.digits ≤ R.digits ∧ U.base.digits ≤ R.digits)
    (t u : Int) (ht : T.Has t) (hu : U.Has u)
    (hx : R.signed = true → t = R.min → u ≠ R.min ∧ (u = -1 → U.lo ≤ 0 ∧ 0 ≤ U.hi)) :
    ExactOrThrows (arith pp p .mod T U t u) (t.tmod u) ∧
    (u = 0 → ∀ v, arith pp p .mod T U t u ≠ .ret v) := by
  obtain ⟨B, e, _, _, h⟩ := runMod_throw hp hR hT hU (fun _ => ⟨fits_of_digits hT hw.1, fits_of_digits hU hw.2⟩)
  rw [tempBase_self hR hw.1 hw.2] at e
  obtain rfl := Out.ret.inj e
  have h := h ht hu (fun g => (hx g.1 g.2.1).1 g.2.2)
    (fun g g' => by
      have := (hx g'.1 g'.2.1).2 g'.2.2
      rw [modExc_zero this.1 this.2] at g; cases g)
    (fun g _ => tmod_in g)
  unfold arith
  rw [show Arith.binOp .mod = .mod from rfl, hres, ret_bind]
  show ExactOrThrows (runMod p R T U t u) _ ∧ (_ → ∀ v, runMod p R T U t u ≠ _)
  rw [h]
  split
  · exact ⟨Or.inr (Or.inr rfl), fun _ v => by simp⟩
  · refine ⟨(remIn_exact _ _ _).1, fun h0 v => ?_⟩
    obtain ⟨e, he⟩ := (remIn_exact R t u).2 h0
    rw [he]; simp

end

section
attribute [local instance] lp64

/-! ### Examples and refutations -/

example : arith .native strictException .div (Opd.ofSafe i32) (Opd.ofSafe i32) (-7) 2 = .ret (-3) ∧
    arith .native strictException .div (Opd.ofSafe i32) (Opd.ofSafe i32) (-7) 0 = .thrown .domain_error ∧
    arith .native strictException .div (Opd.ofSafe i32) (Opd.ofSafe i32) (-2147483648) (-1) =
      .thrown .positive_overflow_error := by decide +kernel
/-- automatic promotion of `INT64_MIN / -1` -/
example : arith .automatic strictException .div (Opd.ofSafe i64) (Opd.ofSafe i64) (-9223372036854775808) (-1) =
      .thrown .positive_overflow_error ∧ PP.automatic.result .div (Opd.ofSafe i64) (Opd.ofSafe i64) = .ret i64 := by
  decide +kernel
/-- a case of `C24_automatic_partial` whose divisor range excludes zero -/
example : PP.automatic.result .div (Opd.range i16 0 1000) (Opd.range i16 2 3) = .ret i16 ∧
    FitsIn i16 (Opd.range i16 2 3) ∧
    arith .automatic strictException .div (Opd.range i16 0 1000) (Opd.range i16 2 3) 1000 3 = .ret 333 := by
  decide +kernel

/-- Automatic promotion: `safe_unsigned_range<0,100000> / safe_unsigned_range<50000,60000>` has type `uint8_t`, and the
operands are converted to that type without a check: the quotient of 60000 by 50177 comes out as 96 instead of 1, and a
divisor of 50176 divides by zero. -/
theorem C24_automatic_refuted :
    PP.automatic.result .div (Opd.range u32 0 100000) (Opd.range u32 50000 60000) = .ret u8 ∧
    arith .automatic strictException .div (Opd.range u32 0 100000) (Opd.range u32 50000 60000) 60000 50177 = .ret 96 ∧
    arith .automatic strictException .div (Opd.range u32 0 100000) (Opd.range u32 50000 60000) 60000 50176 =
      .fault .ub := by decide +kernel

/-- Emulated machine `cpp<8,8,32,32,64>`: the type `int16_t` is unknown, so `safe<int16_t> / safe<int64_t>` and
`safe<int64_t> / safe<int16_t>` have type `int16_t`, and the quotient is truncated. -/
theorem C24_cpp_refuted :
    PP.Wf (.cpp ⟨0, 0, 2, 2, 3⟩) ∧
    arith (.cpp ⟨0, 0, 2, 2, 3⟩) strictException .div (Opd.ofSafe i64) (Opd.ofSafe i16) 100000 1 = .ret (-31072) := by
  decide +kernel

example : arith .native strictException .mod (Opd.ofSafe i32) (Opd.ofSafe i32) (-7) 2 = .ret (-1) ∧
    arith .native strictException .mod (Opd.ofSafe i32) (Opd.ofSafe i32) (-7) 0 = .thrown .domain_error ∧
    arith .native strictException .mod (Opd.ofSafe i32) (Opd.ofSafe i32) (-2147483648) (-1) = .ret 0 := by
  decide +kernel

/-- `safe<int>(INT_MIN) % safe<int>(INT_MIN)` is `INT_MIN` instead of 0 -/
theorem C25_min_refuted :
    arith .native strictException .mod (Opd.ofSafe i32) (Opd.ofSafe i32) (-2147483648) (-2147483648) =
      .ret (-2147483648) := by decide +kernel

/-- `safe<int>(INT_MIN) % safe_signed_range<-5,-1>(-1)` evaluates `INT_MIN % -1` -/
theorem C25_ub_refuted :
    arith .native strictException .mod (Opd.ofSafe i32) (Opd.range i32 (-5) (-1)) (-2147483648) (-1) =
      .fault .ub := by decide +kernel

/-- automatic promotion: `safe_unsigned_range<0,1000> % safe_unsigned_range<5,5>` has type `uint8_t`; 260 % 5 comes out
as 4; and a divisor of 256 divides by zero -/
theorem C25_automatic_refuted :
    arith .automatic strictException .mod (Opd.range u16 0 1000) (Opd.range u16 5 5) 260 5 = .ret 4 ∧
    arith .automatic strictException .mod (Opd.range u16 0 1000) (Opd.range u16 250 260) 260 256 = .fault .ub := by
  decide +kernel

/-- automatic promotion takes the type of a remainder from the *quotients* (automatic.hpp:261) if the divisor is never zero:
`safe_unsigned_range<0,1000> % safe_unsigned_range<500,600>` has type `uint8_t`, since the quotients are 0, 1, 2, and 999 % 500 comes out
as 231 instead of 499 -/
theorem C25_automatic_quotient_refuted :
    PP.automatic.result .mod (Opd.range u16 0 1000) (Opd.range u16 500 600) = .ret u8 ∧
    arith .automatic strictException .mod (Opd.range u16 0 1000) (Opd.range u16 500 600) 999 500 = .ret 231 := by
  decide +kernel
end
end Verif.Props
