import Verif.Proofs.TrapIff
import Verif.Props.Fits

/-!
Property C73: with a policy that traps the compiler rejects exactly what could throw: an operation is accepted if and only if it
fits for all values of its operand types, which is if and only if a policy that throws never throws.
-/

namespace Verif.Props
open Spec Lang

section
variable [Arch]

private theorem covered_trap {pp : PP} {p q : EP} (hp : p.ae = .trap) {o : Op2} {T U : Opd} (h : OpCovered pp q T U o) :
    OpCovered pp p T U o := by
  cases o with
  | ar a => cases a <;> exact h
  | bit b => exact h
  | shl => exact ⟨Or.inl (Or.inr hp), h.2⟩
  | shr => exact ⟨Or.inl (Or.inr hp), h.2⟩

private theorem no_type {pp : PP} {p : EP} {o : Op2} {T U : Opd} (h : pp.result (opName o) T U = .fault .illFormed) (t u : Int) :
    o.safeVal pp p T U t u = .fault .illFormed := by
  cases o with
  | ar a => cases a <;> (show arith pp p _ T U t u = _; unfold arith; erw [h]; rfl)
  | bit b => cases b <;> (show bitwise pp _ T U t u = _; unfold bitwise; erw [h]; rfl)
  | shl => show shl pp p T U t u = _; unfold shl; erw [h]; rfl
  | shr => show shr pp p T U t u = _; unfold shr; erw [h]; rfl

/-- One operator, any promotion policy, an exception policy that traps. The compiler accepts it if and only if there is a
result type and the operation fits that type for all values of the operand types. -/
theorem C73_operator_partial (pp : PP) (hpp : pp.Wf) (p : EP) (hp : p.ae = .trap) (o : Op2) (T U : Opd)
    (hT : T.Wf) (hU : U.Wf) (hc : OpCovered pp p T U o) (t u : Int) (ht : T.Has t) (hu : U.Has u) :
    o.safeVal pp p T U t u ≠ .fault .illFormed ↔
      ∃ R, pp.result (opName o) T U = .ret R ∧ ∀ x y, T.Has x → U.Has y → TyFits R o T U x y := by
  constructor
  · intro h
    rcases result_st pp (opName o) T U with ⟨R, e⟩ | e
    · refine ⟨R, e, fun x y hx hy => ?_⟩
      rcases op_trap hpp hp hT hU hc with g | ⟨S, _, _, _, g⟩
      · exact absurd (g t u ht hu) h
      · obtain ⟨v, g, _⟩ := g x y hx hy
        exact op_fits hpp (Or.inr hp) hT hU hc hx hy g e
    · exact absurd (no_type e t u) h
  · rintro ⟨R, e, h⟩
    obtain ⟨g, g1, g2⟩ := op_settled hpp hT hU hc e h
    rw [show o.safeVal pp p T U t u = g t u from g2 p t u]
    exact g1 t u ht hu

/-- Sum, difference and product of any operand types: accepted if and only if operands and result are in the result type for
all values (or the product is zero for all of them). -/
theorem C73_arith (pp : PP) (hpp : pp.Wf) (p : EP) (hp : p.ae = .trap) (o : Arith) (ho : o = .add ∨ o = .sub ∨ o = .mul)
    (T U : Opd) (hT : T.Wf) (hU : U.Wf) (t u : Int) (ht : T.Has t) (hu : U.Has u) :
    arith pp p o T U t u ≠ .fault .illFormed ↔
      ∃ R, pp.result o.binOp T U = .ret R ∧
        ((∀ x y, T.Has x → U.Has y → R.In x ∧ R.In y ∧ R.In (math o x y)) ∨ (o = .mul ∧ ZeroProduct R T U)) := by
  have hc : OpCovered pp p T U (.ar o) := by rcases ho with rfl | rfl | rfl <;> trivial
  have key := C73_operator_partial pp hpp p hp (.ar o) T U hT hU hc t u ht hu
  have hn : opName (.ar o) = o.binOp := by cases o <;> rfl
  rw [hn] at key
  refine key.trans (exists_congr fun R => and_congr_right fun _ => ⟨fun h => ?_, fun h x y hx hy => ?_⟩)
  · by_cases hz : o = .mul ∧ ZeroProduct R T U
    · exact Or.inr hz
    · left; intro x y hx hy
      rcases h x y hx hy with ⟨a, b, ⟨v, c, d⟩, _⟩ | ⟨g, z⟩
      · rcases ho with rfl | rfl | rfl <;> cases c <;> exact ⟨a, b, d⟩
      · exact absurd ⟨by cases g; rfl, z⟩ hz
  · rcases h with h | ⟨rfl, z⟩
    · obtain ⟨a, b, d⟩ := h x y hx hy
      refine Or.inl ⟨a, b, ⟨_, ?_, d⟩, nofun, nofun⟩
      rcases ho with rfl | rfl | rfl <;> rfl
    · exact Or.inr ⟨rfl, z⟩

/-- The same against a policy that throws: the operator is accepted with the policy that traps if and only if with the policy
that throws it returns a value for all values of the operand types. -/
theorem C73_throwing_partial (pp : PP) (hpp : pp.Wf) (p q : EP) (hp : p.ae = .trap) (hq : q.ae = .throw) (o : Op2) (T U : Opd)
    (hT : T.Wf) (hU : U.Wf) (hc : OpCovered pp q T U o) (t u : Int) (ht : T.Has t) (hu : U.Has u) :
    o.safeVal pp p T U t u ≠ .fault .illFormed ↔
      ∀ x y, T.Has x → U.Has y → ∃ v, o.safeVal pp q T U x y = .ret v := by
  have hc' : OpCovered pp p T U o := covered_trap hp hc
  constructor
  · intro h x y hx hy
    rcases op_any hpp hp o hT hU with g | g
    · exact absurd (g t u) h
    · rcases op_trap hpp hp hT hU hc' with k | ⟨S, _, _, _, k⟩
      · exact absurd (k t u ht hu) h
      · obtain ⟨v, k, _⟩ := k x y hx hy
        exact ⟨v, by rw [← g q x y, k]⟩
  · intro h
    refine (C73_operator_partial pp hpp p hp o T U hT hU hc' t u ht hu).2 ?_
    rcases result_st pp (opName o) T U with ⟨R, e⟩ | e
    · refine ⟨R, e, fun x y hx hy => ?_⟩
      obtain ⟨v, g⟩ := h x y hx hy
      exact op_fits hpp (Or.inl hq) hT hU hc hx hy g e
    · obtain ⟨v, g⟩ := h t u ht hu
      rw [no_type e t u] at g; cases g

/-- Sum, difference and product, without conditions on the operand types. -/
theorem C73_arith_throwing (pp : PP) (hpp : pp.Wf) (p q : EP) (hp : p.ae = .trap) (hq : q.ae = .throw) (o : Arith)
    (ho : o = .add ∨ o = .sub ∨ o = .mul) (T U : Opd) (hT : T.Wf) (hU : U.Wf) (t u : Int) (ht : T.Has t) (hu : U.Has u) :
    arith pp p o T U t u ≠ .fault .illFormed ↔ ∀ x y, T.Has x → U.Has y → ∃ v, arith pp q o T U x y = .ret v :=
  C73_throwing_partial pp hpp p q hp hq (.ar o) T U hT hU (by rcases ho with rfl | rfl | rfl <;> trivial) t u ht hu

/-- Construction and assignment of a safe type: accepted with a policy that traps if and only if every value of the source type
is one of the target type. -/
theorem C73_construct (p : EP) (hp : p.ae = .trap) (S T : Opd) (hS : S.Wf) (hT : T.Wf) (t : Int) (ht : T.Has t) :
    construct p S T t ≠ .fault .illFormed ↔ ∀ x, T.Has x → S.Has x := by
  constructor
  · intro h x hx
    rcases C30_construct p hp S T hS hT with g | g
    · exact absurd (g t ht) h
    · exact (g x hx).2
  · intro h
    have l := h _ ⟨le_refl _, hT.2.2.2.1⟩
    have r := h _ ⟨hT.2.2.2.1, le_refl _⟩
    unfold construct
    split
    · exact nofun
    · rw [validate_eq hS.2.1 hS.2.2.1 hT ht, if_neg, if_pos (inclStatic_complete hS.2.1 hS.2.2.1 hT.2.2.2.1 ⟨l.1, r.2⟩)]
      · exact nofun
      · intro hx
        have := exclStatic_sound hS.2.1 hS.2.2.1 hx
        have := l.1; have := r.2; have := r.1; have := l.2
        omega

/-- Against a policy that throws: accepted if and only if that one never throws. -/
theorem C73_construct_throwing (p q : EP) (hp : p.ae = .trap) (hq : q.ae = .throw) (S T : Opd) (hS : S.Wf) (hT : T.Wf)
    (t : Int) (ht : T.Has t) :
    construct p S T t ≠ .fault .illFormed ↔ ∀ x, T.Has x → ∃ v, construct q S T x = .ret v := by
  rw [C73_construct p hp S T hS hT t ht]
  constructor
  · intro h x hx
    rcases C21_construct q hq S T hS hT x hx with g | g | g
    · exact ⟨x, g.1⟩
    · exact absurd (h x hx) g.2
    · exact absurd (h x hx) (C21_rejected q hq S T hS hT x hx g x hx).1
  · intro h x hx
    obtain ⟨v, g⟩ := h x hx
    exact (C21_any_policy q S T hS hT x v hx g).2

/-- Conversion to a built-in type: accepted with a policy that traps if and only if every value of the stored type is one of
the target type. The range of the source plays no role. -/
theorem C73_toBuiltin (p : EP) (hp : p.ae = .trap) (R : ITy) (T : Opd) (hT : T.Wf) (t : Int) (ht : T.Has t) :
    toBuiltin p R T t ≠ .fault .illFormed ↔ ∀ x, T.base.In x → R.In x := by
  have wf := wf_builtin hT.1
  have nx : ((⟨R.min, R.max⟩ : Itv Int).excludes (intCmp R) ⟨conv R T.lo, conv R T.hi⟩).toBool = false := by
    have c1 := conv_in R T.lo; have c2 := conv_in R T.hi
    change ((T3.ofBool (cLt R R (conv R T.hi) R.min)).or (T3.ofBool (cLt R R R.max (conv R T.lo)))).toBool = false
    rw [cLt_eq (in_uac_self c2) (in_uac_self R.in_min), cLt_eq (in_uac_self R.in_max) (in_uac_self c1)]
    have := c1.2; have := c2.1
    rw [decide_eq_false (by omega), decide_eq_false (by omega)]
    rfl
  unfold toBuiltin
  rw [nx, validate_eq R.in_min R.in_max wf (hT.has_in ht), hp]
  have nex : exclStatic R R.min R.max (Opd.ofBuiltin T.base) = false := by
    by_contra h
    have := exclStatic_sound R.in_min R.in_max (by simpa using h)
    have h1 := R.min_nonpos; have h2 := R.max_ge
    have h3 := T.base.min_nonpos; have h4 := T.base.max_ge
    change R.max < T.base.min ∨ T.base.max < R.min at this
    omega
  rw [nex]
  by_cases h : inclStatic R R.min R.max (Opd.ofBuiltin T.base) = true
  · have g := inclStatic_sound R.in_min R.in_max h
    change R.min ≤ T.base.min ∧ T.base.max ≤ R.max at g
    rw [if_neg nofun, if_neg nofun, if_pos h]
    refine ⟨fun _ x hx => ⟨by have := hx.1; omega, by have := hx.2; omega⟩, fun _ => nofun⟩
  · rw [if_neg nofun, if_neg nofun, if_neg h]
    refine ⟨fun g => absurd rfl g, fun g => absurd (inclStatic_complete R.in_min R.in_max T.base.min_le_max ⟨?_, ?_⟩) h⟩
    · exact (g _ T.base.in_min).1
    · exact (g _ T.base.in_max).2

/-- Comparisons: accepted with a policy that traps if and only if all values of both types are values of the type in which they
are compared. -/
theorem C73_compare (pp : PP) (p : EP) (hp : p.ae = .trap) (o : Rel) (T U : Opd) (hT : T.Wf) (hU : U.Wf) (t u : Int)
    (ht : T.Has t) (hu : U.Has u) :
    compare pp p o T U t u ≠ .fault .illFormed ↔
      ∃ R, cmpType pp o T U = .ret R ∧ (∀ x, T.Has x → R.In x) ∧ ∀ y, U.Has y → R.In y := by
  have opn : ∀ {R : ITy} {T U : Opd}, T.Wf → U.Wf → (cmpOpen R T U = false ↔ (∀ x, T.Has x → R.In x) ∧ ∀ y, U.Has y → R.In y) :=
    fun {R T U} hT hU => ⟨fun h => ⟨fun x hx => in_between (cmpOpen_false h).1 hx, fun y hy => in_between (cmpOpen_false h).2 hy⟩,
      fun h => cmpOpen_of_in (h.1 _ ⟨le_refl _, hT.2.2.2.1⟩) (h.1 _ ⟨hT.2.2.2.1, le_refl _⟩) (h.2 _ ⟨le_refl _, hU.2.2.2.1⟩)
        (h.2 _ ⟨hU.2.2.2.1, le_refl _⟩)⟩
  have lt : ∀ {T U : Opd} {t u : Int}, T.Wf → U.Wf → T.Has t → U.Has u → ∀ R, runLt p R T U t u ≠ .fault .illFormed ↔
      (∀ x, T.Has x → R.In x) ∧ ∀ y, U.Has y → R.In y := fun {T U t u} hT hU ht hu R => by
    rw [← opn hT hU, runLt_trap hp hT hU ht hu]
    cases cmpOpen R T U <;> simp
  have eq : ∀ R, runEq p R T U t u ≠ .fault .illFormed ↔ (∀ x, T.Has x → R.In x) ∧ ∀ y, U.Has y → R.In y := fun R => by
    rw [← opn hT hU, runEq_trap hp hT hU ht hu]
    cases cmpOpen R T U <;> simp
  have nt : ∀ x : Out Bool, (do let b ← x; Out.ret (!b)) ≠ .fault .illFormed ↔ x ≠ .fault .illFormed := fun x => by
    cases x with
    | ret v => exact ⟨fun _ => nofun, fun _ => nofun⟩
    | thrown e => exact ⟨fun _ => nofun, fun _ => nofun⟩
    | fault k => exact not_congr ⟨fun h => by injection h with h; rw [h], fun h => by injection h with h; rw [h]; rfl⟩
  have go : ∀ {x : Out ITy} {f : ITy → Out Bool} {P : ITy → Prop}, Static x → (∀ R, f R ≠ .fault .illFormed ↔ P R) →
      ((do f (← x)) ≠ .fault .illFormed ↔ ∃ R, x = .ret R ∧ P R) := fun {x f P} hx hf => by
    rcases hx with ⟨R, rfl⟩ | rfl
    · exact (hf R).trans ⟨fun h => ⟨R, rfl, h⟩, fun ⟨R', e, h⟩ => by cases e; exact h⟩
    · exact ⟨fun h => absurd rfl h, fun ⟨_, e, _⟩ => by cases e⟩
  unfold compare cmpType
  cases o <;> dsimp only
  · exact go (result_st _ _ _ _) (lt hT hU ht hu)
  · exact go (result_st _ _ _ _) fun R => (lt hU hT hu ht R).trans and_comm
  · exact go (result_st _ _ _ _) fun R => (nt _).trans ((lt hU hT hu ht R).trans and_comm)
  · exact go (result_st _ _ _ _) fun R => (nt _).trans (lt hT hU ht hu R)
  · exact go (result_st _ _ _ _) eq
  · exact go (result_st _ _ _ _) fun R => (nt _).trans (eq R)

end

section
attribute [local instance] lp64

/-- A `safe_signed_range<0, 200>`, stored in a `short`, converts to `unsigned char` without exceptions whatever its value; with a
policy that traps the conversion is rejected, because the stored type has values that do not fit. -/
theorem C73_toBuiltin_refuted :
    (∀ x, (Opd.range i16 0 200).Has x → toBuiltin strictException u8 (Opd.range i16 0 200) x = .ret x) ∧
    ∀ x, (Opd.range i16 0 200).Has x → toBuiltin strictTrap u8 (Opd.range i16 0 200) x = .fault .illFormed := by
  have wf : (Opd.range i16 0 200).Wf := by decide
  refine ⟨fun x hx => (C22_toBuiltin strictException rfl u8 _ wf x hx).1 ⟨hx.1, le_trans hx.2 (by decide)⟩, fun x hx => ?_⟩
  by_contra h
  have := (C73_toBuiltin strictTrap rfl u8 _ wf x hx).1 h (-1) (by decide)
  revert this; decide

/-- The values of the range -10..5 of `int` are less than those of the range 6..9 of `unsigned`. With a policy that throws `<` is
true for all values; with one that traps it is rejected. -/
theorem C73_compare_refuted :
    (∀ x y, (Opd.range i32 (-10) 5).Has x → (Opd.range u32 6 9).Has y →
      compare .native strictException .lt (Opd.range i32 (-10) 5) (Opd.range u32 6 9) x y = .ret true) ∧
    ∀ x y, (Opd.range i32 (-10) 5).Has x → (Opd.range u32 6 9).Has y →
      compare .native strictTrap .lt (Opd.range i32 (-10) 5) (Opd.range u32 6 9) x y = .fault .illFormed := by
  have wT : (Opd.range i32 (-10) 5).Wf := by decide
  have wU : (Opd.range u32 6 9).Wf := by decide
  refine ⟨fun x y hx hy => ?_, fun x y hx hy => ?_⟩
  · have : x < y := by
      have h1 : x ≤ 5 := hx.2
      have h2 : 6 ≤ y := hy.1
      omega
    show (do runLt strictException (← PP.native.result .cmp (Opd.range i32 (-10) 5) (Opd.range u32 6 9)) _ _ x y) = _
    rw [show PP.native.result .cmp (Opd.range i32 (-10) 5) (Opd.range u32 6 9) = .ret u32 by decide +kernel, ret_bind,
      runLt_throw rfl wT wU hx hy, if_neg (by rintro ⟨_, h⟩; exact h (by decide +kernel)),
      if_pos (show ltDecided u32 (Opd.range i32 (-10) 5) (Opd.range u32 6 9) = true by decide +kernel), decide_eq_true this]
  · by_contra h
    obtain ⟨R, e, h1, _⟩ := (C73_compare .native strictTrap rfl .lt _ _ wT wU x y hx hy).1 h
    obtain rfl : u32 = R := Out.ret.inj e
    exact absurd (h1 (-10) (by decide)) (by decide)

/-- Outside the covered operand types: `safe_signed_range<INT_MIN, 0> % safe_signed_range<-3, -1>` is accepted with a policy that
traps, although a value does not fit: `INT_MIN % -1` is undefined, with a policy that throws as well. -/
theorem C73_operator_refuted :
    arith .native strictTrap .mod (Opd.range i32 (-2147483648) 0) (Opd.range i32 (-3) (-1)) (-7) (-2) = .ret (-1) ∧
    arith .native strictTrap .mod (Opd.range i32 (-2147483648) 0) (Opd.range i32 (-3) (-1)) (-2147483648) (-1) = .fault .ub ∧
    arith .native strictException .mod (Opd.range i32 (-2147483648) 0) (Opd.range i32 (-3) (-1)) (-2147483648) (-1) =
      .fault .ub := by
  decide +kernel

-- each equivalence has a case where both sides are true, and one where both are false
example : arith .native strictTrap .add (Opd.range i32 0 1000) (Opd.range i32 0 1000) 7 8 = .ret 15 ∧
    arith .native strictTrap .add (Opd.range i32 0 2147483647) (Opd.range i32 0 1) 7 1 = .fault .illFormed ∧
    arith .native strictException .add (Opd.range i32 0 2147483647) (Opd.range i32 0 1) 2147483647 1 =
      .thrown .positive_overflow_error := by decide +kernel
example : arith .native strictTrap .mul (Opd.range i32 0 0) (Opd.ofSafe i32) 0 8 = .ret 0 ∧
    arith .native strictTrap .mul (Opd.ofSafe i32) (Opd.ofSafe i32) 0 8 = .fault .illFormed := by decide +kernel
example : arith .native strictTrap .div (Opd.ofSafe i32) (Opd.range i32 1 9) 7 2 = .ret 3 ∧
    arith .native strictTrap .div (Opd.ofSafe i32) (Opd.range i32 0 9) 7 2 = .fault .illFormed ∧
    arith .native strictTrap .div (Opd.ofSafe i32) (Opd.range i32 (-2) (-1)) 7 (-2) = .fault .illFormed := by decide +kernel
example : shr .native strictTrap (Opd.range i32 0 63) (Opd.range i32 0 31) 63 4 = .ret 3 ∧
    shr .native strictTrap (Opd.range i32 0 63) (Opd.range i32 0 32) 63 4 = .fault .illFormed := by decide +kernel
example : construct strictTrap (Opd.ofSafe i16) (Opd.ofBuiltin i8) 5 = .ret 5 ∧
    construct strictTrap (Opd.ofSafe i8) (Opd.ofBuiltin i16) 5 = .fault .illFormed := by decide +kernel
example : toBuiltin strictTrap i32 (Opd.range i16 0 200) 7 = .ret 7 := by decide +kernel
example : compare .native strictTrap .lt (Opd.ofSafe i32) (Opd.ofSafe i16) 3 4 = .ret true ∧
    compare .native strictTrap .lt (Opd.ofSafe i32) (Opd.ofSafe u32) 3 4 = .fault .illFormed := by decide +kernel
end

end Verif.Props
