import Verif.Props.Fits

/-!
C33: exactly when an expression of built-in integers that is right keeps its value with safe types and native promotion.
-/

namespace Verif.Props
open Spec Out

section
variable [Arch]

private theorem native_result (o : Arith) (T U : Opd) : PP.native.result (opName (.ar o)) T U = .ret (uac T.base U.base) := by
  cases o <;> rfl

private theorem native_covered {p : EP} {T U : Opd} (hT : T.Wf) (hU : U.Wf) (o : Arith) (ho : o ≠ .mod) :
    OpCovered .native p T U (.ar o) := by
  cases o
  · trivial
  · trivial
  · trivial
  · exact Lang.native_div_covered hT hU
  · exact absurd rfl ho

omit [Arch] in
private theorem nonneg {R : ITy} {t u : Int} (h : R.In t ∧ R.In u) : R.signed = true ∨ (0 ≤ t ∧ 0 ≤ u) := by
  cases hs : R.signed
  · right
    have e := ITy.min_eq R
    rw [hs] at e
    simp at e
    exact ⟨e ▸ h.1.1, e ▸ h.2.1⟩
  · exact Or.inl rfl

/-- If the built-in expression `t op u` has the right value, and the expression with safe operands compiles, then the latter has the
same value if and only if both operands are values of the common type (no negative number meets an unsigned type), or the product is known to be
zero from the types. In all other cases it throws. -/
theorem C33_iff (p : EP) (hp : p.ae = .throw) (o : Arith) (ho : o ≠ .mod) (T U : Opd) (hT : T.Wf) (hU : U.Wf) (t u : Int)
    (ht : T.Has t) (hu : U.Has u) (hb : builtin o T.base U.base t u = .ret (math o t u))
    (ha : arith .native p o T U t u ≠ .fault .illFormed) :
    (arith .native p o T U t u = .ret (math o t u) ↔
      ((uac T.base U.base).In t ∧ (uac T.base U.base).In u) ∨ (o = .mul ∧ ZeroProduct (uac T.base U.base) T U)) ∧
    (arith .native p o T U t u ≠ .ret (math o t u) → ∃ e, arith .native p o T U t u = .thrown e) := by
  have c := native_covered (p := p) hT hU o ho
  have k := C71_operator_partial .native trivial p (Or.inl hp) (.ar o) T U hT hU c t u ht hu ha
  have hf : (arith .native p o T U t u = .ret (math o t u) ↔
      ((uac T.base U.base).In t ∧ (uac T.base U.base).In u) ∨ (o = .mul ∧ ZeroProduct (uac T.base U.base) T U)) := by
    constructor
    · intro h
      by_contra hn
      obtain ⟨e, he⟩ := k.2 ⟨_, native_result o T U, by
        rintro (⟨h1, h2, _⟩ | ⟨h1, h2⟩)
        · exact hn (Or.inl ⟨h1, h2⟩)
        · cases h1; exact hn (Or.inr ⟨rfl, h2⟩)⟩
      have he : arith .native p o T U t u = .thrown e := he
      rw [h] at he
      cases he
    · rintro (h | ⟨rfl, h⟩)
      · exact (C33_arith_partial p hp o ho T U hT hU t u ht hu (nonneg h) hb).1
      · rcases C66_operator_partial .native trivial p (Or.inl hp) (.ar .mul) T U hT hU c t u ht hu (fun R hR => by
          cases (native_result .mul T U).symm.trans hR
          exact Or.inr ⟨rfl, h⟩) with ⟨v, h1, h2⟩ | h1
        · cases h2; exact h1
        · exact absurd h1 ha
  refine ⟨hf, fun h => k.2 ⟨_, native_result o T U, ?_⟩⟩
  rintro (⟨h1, h2, _⟩ | ⟨h1, h2⟩)
  · exact h (hf.2 (Or.inl ⟨h1, h2⟩))
  · cases h1; exact h (hf.2 (Or.inr ⟨rfl, h2⟩))

/-- Comparisons, every promotion policy, a policy that throws or traps: if the comparison compiles, it has a result, the right one, if both
operands are values of the type in which they are compared, or, for `<`, `>`, `<=`, `>=`, the order follows from the bounds of the types;
otherwise it throws. -/
theorem C28_iff (pp : PP) (hpp : pp.Wf) (p : EP) (hp : p.ae = .throw ∨ p.ae = .trap) (o : Rel) (T U : Opd) (hT : T.Wf) (hU : U.Wf)
    (t u : Int) (ht : T.Has t) (hu : U.Has u) (ha : compare pp p o T U t u ≠ .fault .illFormed) :
    ∃ R, cmpType pp o T U = .ret R ∧ (compare pp p o T U t u = .ret (rel o t u) ↔ CmpFits R o T U t u) ∧
      ((∃ e, compare pp p o T U t u = .thrown e) ↔ ¬ CmpFits R o T U t u) := by
  have hx : ExactOrThrows (compare pp p o T U t u) (rel o t u) := by
    rcases hp with hp | hp
    · exact C28_exact pp hpp p hp o T U hT hU t u ht hu
    · rcases C30_compare pp hpp p hp o T U hT hU with h | h
      · exact absurd (h t u ht hu) ha
      · exact Or.inl (h t u ht hu)
  have hR : ∃ R, cmpType pp o T U = .ret R := by
    have k1 := PP.result_total hpp (op := .cmp) (by decide) hT hU
    have k2 := PP.result_total hpp (op := .cmp) (by decide) hU hT
    unfold compare at ha
    cases o <;> unfold cmpType <;> dsimp only at ha ⊢
    case gt | le =>
      rcases k2 with ⟨R, e, _⟩ | e
      · exact ⟨R, e⟩
      · rw [e] at ha; exact absurd rfl ha
    all_goals
      rcases k1 with ⟨R, e, _⟩ | e
      · exact ⟨R, e⟩
      · rw [e] at ha; exact absurd rfl ha
  obtain ⟨R, hR⟩ := hR
  refine ⟨R, hR, ?_⟩
  by_cases hf : CmpFits R o T U t u
  · have q := cmp_quiet hpp hp o hT hU ht hu fun R1 h1 => by cases hR.symm.trans h1; exact hf
    rcases hx with h | ⟨e, h⟩ | h
    · exact ⟨⟨fun _ => hf, fun _ => h⟩, ⟨fun ⟨e, g⟩ => (q e g).elim, fun g => absurd hf g⟩⟩
    · exact (q e h).elim
    · exact absurd h ha
  · rcases hx with h | h | h
    · exact absurd (cmp_fits hp hT hU ht hu h hR) hf
    · refine ⟨⟨fun g => ?_, fun g => absurd g hf⟩, ⟨fun _ => hf, fun _ => h⟩⟩
      obtain ⟨e, h⟩ := h
      rw [h] at g; cases g
    · exact absurd h ha

/-- So with native promotion: if the built-in comparison is right, the one of safe types gives the same answer if and only if both operands are
values of the common type or the order follows from the bounds of the types; otherwise it throws. -/
theorem C33_compare_iff (p : EP) (hp : p.ae = .throw ∨ p.ae = .trap) (o : Rel) (T U : Opd) (hT : T.Wf) (hU : U.Wf) (t u : Int)
    (ht : T.Has t) (hu : U.Has u) (hb : builtinRel o T.base U.base t u = rel o t u)
    (ha : compare .native p o T U t u ≠ .fault .illFormed) :
    (compare .native p o T U t u = .ret (builtinRel o T.base U.base t u) ↔ CmpFits (uac T.base U.base) o T U t u) ∧
    ((∃ e, compare .native p o T U t u = .thrown e) ↔ ¬ CmpFits (uac T.base U.base) o T U t u) := by
  obtain ⟨R, hR, h⟩ := C28_iff .native trivial p hp o T U hT hU t u ht hu ha
  have : R = uac T.base U.base := by
    cases o <;> cases hR <;> first | rfl | exact uac_comm _ _
  subst this
  rw [hb]
  exact h

end

section
attribute [local instance] lp64

-- `safe<int>(-1) + 5u` throws although the built-in sum is 4; `safe<int>(3) * 5u` is 15 like the built-in product
example : builtin .add i32 u32 (-1) 5 = .ret (math .add (-1) 5) ∧
    arith .native strictException .add (Opd.ofSafe i32) (Opd.ofBuiltin u32) (-1) 5 ≠ .fault .illFormed ∧ ¬ (uac i32 u32).In (-1) := by
  decide +kernel

example : builtin .mul i32 u32 3 5 = .ret (math .mul 3 5) ∧
    arith .native strictException .mul (Opd.ofSafe i32) (Opd.ofBuiltin u32) 3 5 = .ret 15 ∧ (uac i32 u32).In 3 := by
  decide +kernel

-- `safe<int>(-1) == 5u` throws although the built-in comparison is right; 7 == 5u is false
example : builtinRel .eq i32 u32 (-1) 5 = rel .eq (-1) 5 ∧
    compare .native strictException .eq (Opd.ofSafe i32) (Opd.ofBuiltin u32) (-1) 5 = .thrown .domain_error ∧
    compare .native strictException .eq (Opd.ofSafe i32) (Opd.ofBuiltin u32) 7 5 = .ret false := by
  decide +kernel

-- the order follows from the types: -1 is no value of `unsigned`
example : ¬ (uac i32 u32).In (-1) ∧ CmpFits (uac i32 u32) .lt (Opd.range i32 (-5) 3) (Opd.range u32 10 20) (-1) 11 ∧
    compare .native strictException .lt (Opd.range i32 (-5) 3) (Opd.range u32 10 20) (-1) 11 = .ret true := by
  refine ⟨by decide +kernel, Or.inr ⟨nofun, nofun, Or.inl ⟨?_, ?_, ?_, ?_⟩⟩, ?_⟩ <;> decide +kernel

end
end Verif.Props
