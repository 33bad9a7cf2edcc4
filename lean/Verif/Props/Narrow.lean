import Verif.Props.TrapIff
import Verif.Props.Tight
import Verif.Props.DropIn

/-!
Property C93: narrowing the declared ranges of operands does no harm. With the promotion policies whose result types depend on the base
types only (native, cpp) every value is computed as before, nothing that was accepted at compile time is rejected, and the type of
the result becomes no wider. The ranges of variables that are assigned to are another matter: a narrower target rejects more.
-/

namespace Verif.Spec

/-- `T'` is `T` with a range that is as narrow or narrower: the same base type and kind of type (safe, built-in, literal) -/
def Narrows (T' T : Opd) : Prop := T'.base = T.base ∧ T'.kind = T.kind ∧ T.lo ≤ T'.lo ∧ T'.hi ≤ T.hi

/-- the promotion policies that look at the base types of the operands only -/
def Rangeless (pp : PP) : Prop := pp ≠ .automatic

end Verif.Spec

namespace Verif.Props
open Spec Lang Out

section
variable [Arch]

omit [Arch] in
private theorem has_of {T' T : Opd} (h : Narrows T' T) {x : Int} (hx : T'.Has x) : T.Has x :=
  ⟨le_trans h.2.2.1 hx.1, le_trans hx.2 h.2.2.2⟩

omit [Arch] in
private theorem notLit_of {T' T : Opd} (h : Narrows T' T) (n : NotLit T) : NotLit T' := by
  unfold NotLit at *; rw [h.2.1]; exact n

private theorem litsOk {R : ITy} {T U : Opd} (hT : NotLit T) (hU : NotLit U) : LitsOk R T U := by
  have k : ∀ {T : Opd}, NotLit T → ∀ b, T.kind ≠ .lit b := fun h b hb => by rcases h with h | h <;> rw [h] at hb <;> cases hb
  exact ⟨litOk_not_lit (k hT), litOk_not_lit (k hU)⟩

private theorem result_of {pp : PP} (hp : Rangeless pp) {T T' U U' : Opd} (hT : Narrows T' T) (hU : Narrows U' U) (op : BinOp) :
    pp.result op T' U' = pp.result op T U := by
  cases pp with
  | native => simp only [PP.result, hT.1, hU.1]
  | automatic => exact absurd rfl hp
  | cpp m => simp only [PP.result, hT.1, hU.1]

private theorem zero_of {R : ITy} {T T' U U' : Opd} (hT : Narrows T' T) (hU : Narrows U' U) (wT : T'.Wf) (wU : U'.Wf)
    (h : ZeroProduct R T U) : ZeroProduct R T' U' := by
  have l1 := wT.2.2.2.1; have l2 := wU.2.2.2.1
  have a1 := hT.2.2.1; have a2 := hT.2.2.2; have b1 := hU.2.2.1; have b2 := hU.2.2.2
  rcases h with ⟨h1, h2, h3⟩ | ⟨h1, h2, h3⟩
  · exact Or.inl ⟨by omega, by omega, h3.imp_right (fun h => by omega)⟩
  · exact Or.inr ⟨by omega, by omega, h3.imp_right (fun h => by omega)⟩

private theorem fits_of {R : ITy} {o : Op2} {T T' U U' : Opd} (hT : Narrows T' T) (hU : Narrows U' U) (wT : T'.Wf) (wU : U'.Wf)
    {t u : Int} (h : TyFits R o T U t u) : TyFits R o T' U' t u :=
  h.imp_right (fun g => ⟨g.1, zero_of hT hU wT wU g.2⟩)

/-- One operator, a policy that throws or traps: if `t op u` has a value for the wider types, it has the same value for the narrower
types, where those compile (see `C93_arith` and `C93_trap_partial`). Missing: the operators that are not covered (C58). -/
theorem C93_operator_partial (pp : PP) (hpp : pp.Wf) (hr : Rangeless pp) (p : EP) (hp : p.ae = .throw ∨ p.ae = .trap) (o : Op2)
    (T U T' U' : Opd) (wT : T.Wf) (wU : U.Wf) (wT' : T'.Wf) (wU' : U'.Wf) (hT : Narrows T' T) (hU : Narrows U' U)
    (hc : OpCovered pp p T U o) (hc' : OpCovered pp p T' U' o) (t u v : Int) (ht : T'.Has t) (hu : U'.Has u)
    (h : o.safeVal pp p T U t u = .ret v) :
    o.safeVal pp p T' U' t u = .ret v ∨ o.safeVal pp p T' U' t u = .fault .illFormed := by
  have ht0 := has_of hT ht; have hu0 := has_of hU hu
  have k := C71_operator_partial pp hpp p hp o T U wT wU hc t u ht0 hu0 (by rw [h]; simp)
  have hf : ∀ R, pp.result (opName o) T U = .ret R → TyFits R o T U t u := by
    intro R hR
    by_contra hn
    obtain ⟨e, he⟩ := k.2 ⟨R, hR, hn⟩
    rw [h] at he; cases he
  have hv : imath o t u = some v := by
    rcases C66_operator_partial pp hpp p hp o T U wT wU hc t u ht0 hu0 hf with ⟨w, h1, h2⟩ | h1
    · rw [h] at h1; cases h1; exact h2
    · rw [h] at h1; cases h1
  rcases C66_operator_partial pp hpp p hp o T' U' wT' wU' hc' t u ht hu
      (fun R hR => fits_of hT hU wT' wU' (hf R (by rw [← result_of hr hT hU]; exact hR))) with ⟨w, h1, h2⟩ | h1
  · rw [hv] at h2; cases h2; exact Or.inl h1
  · exact Or.inr h1

/-- One operator, a policy that traps: what the compiler accepts for the wider types it accepts for the narrower ones.
Missing: the operators that are not covered (C58). -/
theorem C93_trap_partial (pp : PP) (hpp : pp.Wf) (hr : Rangeless pp) (p : EP) (hp : p.ae = .trap) (o : Op2) (T U T' U' : Opd)
    (wT : T.Wf) (wU : U.Wf) (wT' : T'.Wf) (wU' : U'.Wf) (hT : Narrows T' T) (hU : Narrows U' U) (hc : OpCovered pp p T U o)
    (hc' : OpCovered pp p T' U' o) (t u t' u' : Int) (ht : T.Has t) (hu : U.Has u) (ht' : T'.Has t') (hu' : U'.Has u')
    (h : o.safeVal pp p T U t u ≠ .fault .illFormed) : o.safeVal pp p T' U' t' u' ≠ .fault .illFormed := by
  rw [C73_operator_partial pp hpp p hp o T U wT wU hc t u ht hu] at h
  rw [C73_operator_partial pp hpp p hp o T' U' wT' wU' hc' t' u' ht' hu']
  obtain ⟨R, e, h⟩ := h
  exact ⟨R, by rw [result_of hr hT hU]; exact e,
    fun x y hx hy => fits_of hT hU wT' wU' (h x y (has_of hT hx) (has_of hU hy))⟩

/-- `+`, `-`, `*` with a policy that throws or traps: if there is a value for the wider types, there is the same value for the
narrower types. -/
theorem C93_arith (pp : PP) (hpp : pp.Wf) (hr : Rangeless pp) (p : EP) (hp : p.ae = .throw ∨ p.ae = .trap) (o : Arith)
    (ho : o = .add ∨ o = .sub ∨ o = .mul) (T U T' U' : Opd) (wT : T.Wf) (wU : U.Wf) (wT' : T'.Wf) (wU' : U'.Wf)
    (nT : NotLit T) (nU : NotLit U) (hT : Narrows T' T) (hU : Narrows U' U) (t u v : Int) (ht : T'.Has t) (hu : U'.Has u)
    (h : arith pp p o T U t u = .ret v) : arith pp p o T' U' t u = .ret v := by
  have c : ∀ T U, OpCovered pp p T U (.ar o) := fun T U => by rcases ho with rfl | rfl | rfl <;> trivial
  rcases C93_operator_partial pp hpp hr p hp (.ar o) T U T' U' wT wU wT' wU' hT hU (c _ _) (c _ _) t u v ht hu h with g | g
  · exact g
  · exfalso
    rcases hp with hp | hp
    · rcases PP.result_total hpp (op := o.binOp) (by rcases ho with rfl | rfl | rfl <;> decide) wT' wU' with ⟨R, e, hR⟩ | e
      · have g : arith pp p o T' U' t u = .fault .illFormed := g
        rcases C23_policy pp p hp o ho T' U' wT' wU' (notLit_of hT nT) (notLit_of hU nU) R hR e t u ht hu with k | ⟨_, _, k⟩
        · rw [g] at k
          unfold exactIn orThrow at k
          revert k
          split <;> (try split) <;> simp
        · rw [g] at k; cases k
      · rw [result_of hr hT hU] at e
        have h : arith pp p o T U t u = .ret v := h
        unfold arith at h
        rw [e] at h
        cases h
    · exact C93_trap_partial pp hpp hr p hp (.ar o) T U T' U' wT wU wT' wU' hT hU (c _ _) (c _ _) t u t u (has_of hT ht)
        (has_of hU hu) ht hu (by rw [show (Op2.ar o).safeVal pp p T U t u = .ret v from h]; simp) g

/-- Native promotion and a policy that throws: the declared ranges have no influence at all on the outcome of `+`, `-`, `*`, `/`,
be it a value or an exception. -/
theorem C93_native (p : EP) (hp : p.ae = .throw) (o : Arith) (ho : o ≠ .mod) (T U T' U' : Opd) (wT : T.Wf) (wU : U.Wf)
    (wT' : T'.Wf) (wU' : U'.Wf) (nT : NotLit T) (nU : NotLit U) (hT : Narrows T' T) (hU : Narrows U' U) (t u : Int)
    (ht : T'.Has t) (hu : U'.Has u) : arith .native p o T' U' t u = arith .native p o T U t u := by
  have ht0 := has_of hT ht; have hu0 := has_of hU hu
  have nT' := notLit_of hT nT; have nU' := notLit_of hU nU
  by_cases hd : o = .div
  · subst hd
    rw [C24_native p hp T U wT wU nT nU t u ht0 hu0, C24_native p hp T' U' wT' wU' nT' nU' t u ht hu, hT.1, hU.1]
  · have ho' : o = .add ∨ o = .sub ∨ o = .mul := by cases o <;> simp_all
    rw [C23_native p hp o ho' T U wT wU nT nU t u ht0 hu0, C23_native p hp o ho' T' U' wT' wU' nT' nU' t u ht hu, hT.1, hU.1]

/-- The type of `a + b`, `a - b`, `a * b` becomes no wider, if the result type represents the wider operands and at least one
result of the narrower ones. -/
theorem C93_type (pp : PP) (hpp : pp.Wf) (hr : Rangeless pp) (o : Arith) (ho : o = .add ∨ o = .sub ∨ o = .mul) (T U T' U' : Opd)
    (wT : T.Wf) (wU : U.Wf) (wT' : T'.Wf) (wU' : U'.Wf) (hT : Narrows T' T) (hU : Narrows U' U) (R : ITy)
    (hres : pp.result o.binOp T U = .ret R) (fT : ∀ x, T.Has x → R.In x) (fU : ∀ y, U.Has y → R.In y)
    (hx : ∃ x y, T'.Has x ∧ U'.Has y ∧ R.In (math o x y)) :
    ∃ S S', arithTy pp o T U = .ret S ∧ arithTy pp o T' U' = .ret S' ∧ Narrows S' S := by
  have l1 := wT.2.2.2.1; have l2 := wU.2.2.2.1; have l1' := wT'.2.2.2.1; have l2' := wU'.2.2.2.1
  obtain ⟨S, eS, kS, bS, m, M, hm, hM, eL, eH⟩ := C77_arith pp hpp o ho T U wT wU R hres (fT _ ⟨le_refl _, l1⟩)
    (fT _ ⟨l1, le_refl _⟩) (fU _ ⟨le_refl _, l2⟩) (fU _ ⟨l2, le_refl _⟩)
  obtain ⟨S', eS', kS', bS', m', M', hm', hM', eL', eH'⟩ := C77_arith pp hpp o ho T' U' wT' wU' R
    (by rw [result_of hr hT hU]; exact hres) (fT _ (has_of hT ⟨le_refl _, l1'⟩)) (fT _ (has_of hT ⟨l1', le_refl _⟩))
    (fU _ (has_of hU ⟨le_refl _, l2'⟩)) (fU _ (has_of hU ⟨l2', le_refl _⟩))
  obtain ⟨x, y, hx, hy, hi⟩ := hx
  have b1 := hm'.2 x y hx hy; have b2 := hM'.2 x y hx hy
  have c1 := hi.1; have c2 := hi.2
  obtain ⟨⟨t, u, ht, hu, e⟩, _⟩ := hm'
  have hle : m ≤ m' := e ▸ hm.2 t u (has_of hT ht) (has_of hU hu)
  obtain ⟨⟨t1, u1, ht1, hu1, e1⟩, _⟩ := hM'
  have hge : M' ≤ M := e1 ▸ hM.2 t1 u1 (has_of hT ht1) (has_of hU hu1)
  refine ⟨S, S', eS, eS', by rw [bS, bS'], by rw [kS, kS'], ?_, ?_⟩
  · rw [eL, eL']
    unfold ITy.In
    split_ifs <;> omega
  · rw [eH, eH']
    unfold ITy.In
    split_ifs <;> omega

/-- The same for `a / b` with a divisor that is never zero. -/
theorem C93_type_div (pp : PP) (hr : Rangeless pp) (T U T' U' : Opd) (wT : T.Wf) (wU : U.Wf) (wT' : T'.Wf) (wU' : U'.Wf)
    (hT : Narrows T' T) (hU : Narrows U' U) (R : ITy) (hres : pp.result .div T U = .ret R) (fT : ∀ x, T.Has x → R.In x)
    (fU : ∀ y, U.Has y → R.In y) (h0 : ¬ U.Has 0) (hx : ∃ x y, T'.Has x ∧ U'.Has y ∧ R.In (x.tdiv y)) :
    ∃ S S', arithTy pp .div T U = .ret S ∧ arithTy pp .div T' U' = .ret S' ∧ Narrows S' S := by
  have l1 := wT.2.2.2.1; have l2 := wU.2.2.2.1; have l1' := wT'.2.2.2.1; have l2' := wU'.2.2.2.1
  have z : ∀ {U : Opd}, ¬ U.Has 0 → U.hi < 0 ∨ 0 < U.lo := fun {U} h => by
    by_contra hn
    push Not at hn
    exact h ⟨hn.2, hn.1⟩
  obtain ⟨S, eS, kS, bS, m, M, hm, hM, eL, eH⟩ := C77_div pp T U wT wU R hres (fT _ ⟨le_refl _, l1⟩)
    (fT _ ⟨l1, le_refl _⟩) (fU _ ⟨le_refl _, l2⟩) (fU _ ⟨l2, le_refl _⟩) (z h0)
  obtain ⟨S', eS', kS', bS', m', M', hm', hM', eL', eH'⟩ := C77_div pp T' U' wT' wU' R
    (by rw [result_of hr hT hU]; exact hres) (fT _ (has_of hT ⟨le_refl _, l1'⟩)) (fT _ (has_of hT ⟨l1', le_refl _⟩))
    (fU _ (has_of hU ⟨le_refl _, l2'⟩)) (fU _ (has_of hU ⟨l2', le_refl _⟩)) (z (fun h => h0 (has_of hU h)))
  obtain ⟨x, y, hx, hy, hi⟩ := hx
  have b1 := hm'.2 x y hx hy; have b2 := hM'.2 x y hx hy
  have c1 := hi.1; have c2 := hi.2
  change m' ≤ x.tdiv y at b1
  change x.tdiv y ≤ M' at b2
  obtain ⟨⟨t, u, ht, hu, e⟩, _⟩ := hm'
  have hle : m ≤ m' := e ▸ hm.2 t u (has_of hT ht) (has_of hU hu)
  obtain ⟨⟨t1, u1, ht1, hu1, e1⟩, _⟩ := hM'
  have hge : M' ≤ M := e1 ▸ hM.2 t1 u1 (has_of hT ht1) (has_of hU hu1)
  refine ⟨S, S', eS, eS', by rw [bS, bS'], by rw [kS, kS'], ?_, ?_⟩
  · rw [eL, eL']
    unfold ITy.In
    split_ifs <;> omega
  · rw [eH, eH']
    unfold ITy.In
    split_ifs <;> omega

/-- Automatic promotion: if `intmax_t` or `uintmax_t` represents operands and results, the base type that is chosen for the narrower operands
has the same signedness and is no wider. (It may be too narrow for the operands, see `C93_automatic_refuted`.) -/
theorem C93_automatic_type (o : Arith) (ho : o = .add ∨ o = .sub ∨ o = .mul) (T U T' U' : Opd) (wT : T.Wf) (wU : U.Wf) (wT' : T'.Wf)
    (wU' : U'.Wf) (hT : Narrows T' T) (hU : Narrows U' U) (B : ITy)
    (hB : B = if o ≠ .sub ∧ T.base.signed = false ∧ U.base.signed = false then tUIntMax else tIntMax)
    (fT : ∀ x, T.Has x → B.In x) (fU : ∀ y, U.Has y → B.In y) (hall : ∀ t u, T.Has t → U.Has u → B.In (math o t u)) :
    ∃ R R', PP.automatic.result o.binOp T U = .ret R ∧ PP.automatic.result o.binOp T' U' = .ret R' ∧ R'.signed = R.signed ∧
      R'.lg ≤ R.lg := by
  have l1 := wT.2.2.2.1; have l2 := wU.2.2.2.1; have l1' := wT'.2.2.2.1; have l2' := wU'.2.2.2.1
  obtain ⟨R, e, _, s, h⟩ := C77_automatic o ho T U wT wU B hB (fT _ ⟨le_refl _, l1⟩) (fT _ ⟨l1, le_refl _⟩)
    (fU _ ⟨le_refl _, l2⟩) (fU _ ⟨l2, le_refl _⟩) hall
  obtain ⟨R', e', _, s', h'⟩ := C77_automatic o ho T' U' wT' wU' B (by rw [hB, hT.1, hU.1])
    (fT _ (has_of hT ⟨le_refl _, l1'⟩)) (fT _ (has_of hT ⟨l1', le_refl _⟩))
    (fU _ (has_of hU ⟨le_refl _, l2'⟩)) (fU _ (has_of hU ⟨l2', le_refl _⟩))
    (fun t u ht hu => hall t u (has_of hT ht) (has_of hU hu))
  exact ⟨R, R', e, e', s'.trans s.symm, h'.2 R (s.trans s'.symm) (fun t u ht hu => h.1 t u (has_of hT ht) (has_of hU hu))⟩

private theorem apart_of {R : ITy} {T T' U U' : Opd} (hT : Narrows T' T) (hU : Narrows U' U)
    (h0 : R.signed = true ∨ 0 ≤ T'.hi) (h : Apart R T U) : Apart R T' U' := by
  obtain ⟨h1, h2, h3, h4⟩ := h
  have a1 := hT.2.2.1; have a2 := hT.2.2.2; have b1 := hU.2.2.1; have b2 := hU.2.2.2
  refine ⟨by omega, by omega, by omega, fun hs => ?_⟩
  rcases h0 with h0 | h0
  · rw [hs] at h0; cases h0
  · exact h0

private theorem compiles {pp : PP} {p : EP} (hp : p.ae = .throw) {o : Rel} {T U : Opd} (hT : T.Wf) (hU : U.Wf) (nT : NotLit T)
    (nU : NotLit U) {t u : Int} (ht : T.Has t) (hu : U.Has u) {R : ITy} (e : cmpType pp o T U = .ret R) :
    compare pp p o T U t u ≠ .fault .illFormed := by
  have ci : ∀ t u b, cmpIn R t u b ≠ .fault .illFormed := by
    intro t u b
    unfold cmpIn
    split <;> simp
  have lt : ∀ {T U : Opd} {t u : Int}, T.Wf → U.Wf → NotLit T → NotLit U → T.Has t → U.Has u →
      runLt p R T U t u ≠ .fault .illFormed := by
    intro T U t u hT hU nT nU ht hu
    rw [runLt_throw hp hT hU ht hu, if_neg (fun h => h.2 (litsOk nT nU))]
    split
    · simp
    · exact ci _ _ _
  have eq : runEq p R T U t u ≠ .fault .illFormed := by
    rw [runEq_throw hp hT hU ht hu, if_neg (fun h => h.2 (litsOk nT nU))]
    exact ci _ _ _
  have nt : ∀ {x : Out Bool}, x ≠ .fault .illFormed → (do let b ← x; .ret (!b) : Out Bool) ≠ .fault .illFormed := by
    intro x hx
    rcases x with b | b | b
    · simp
    · simp
    · intro h; exact hx (by cases h; rfl)
  have l1 := lt hT hU nT nU ht hu
  have l2 := lt hU hT nU nT hu ht
  unfold compare
  cases o <;> simp only [cmpType] at e <;> rw [e, Out.ret_bind]
  · exact l1
  · exact l2
  · exact nt l2
  · exact nt l1
  · exact eq
  · exact nt eq

/-- Comparisons, a policy that throws or traps: if there is a result for the wider types, there is the same result for the narrower
types. Missing: a comparison in an unsigned type with an operand that is always negative, see `C93_compare_refuted`. -/
theorem C93_compare_partial (pp : PP) (hpp : pp.Wf) (hr : Rangeless pp) (p : EP) (hp : p.ae = .throw ∨ p.ae = .trap) (o : Rel)
    (T U T' U' : Opd) (wT : T.Wf) (wU : U.Wf) (wT' : T'.Wf) (wU' : U'.Wf) (nT : NotLit T) (nU : NotLit U) (hT : Narrows T' T)
    (hU : Narrows U' U) (h0 : ∀ R, cmpType pp o T U = .ret R → R.signed = true ∨ (0 ≤ T'.hi ∧ 0 ≤ U'.hi)) (t u : Int)
    (b : Bool) (ht : T'.Has t) (hu : U'.Has u) (h : compare pp p o T U t u = .ret b) : compare pp p o T' U' t u = .ret b := by
  have ce : cmpType pp o T' U' = cmpType pp o T U := by
    cases o <;> simp only [cmpType, result_of hr hT hU, result_of hr hU hT]
  obtain ⟨R, e, k1, k2⟩ := C28_iff pp hpp p hp o T U wT wU t u (has_of hT ht) (has_of hU hu) (by rw [h]; simp)
  have ha : compare pp p o T' U' t u ≠ .fault .illFormed := by
    rcases hp with hp | hp
    · exact compiles hp wT' wU' (notLit_of hT nT) (notLit_of hU nU) ht hu (ce.trans e)
    · have g := (C73_compare pp p hp o T U wT wU t u (has_of hT ht) (has_of hU hu)).1 (by rw [h]; simp)
      obtain ⟨R', e', g1, g2⟩ := g
      exact (C73_compare pp p hp o T' U' wT' wU' t u ht hu).2
        ⟨R', ce.trans e', fun x hx => g1 x (has_of hT hx), fun y hy => g2 y (has_of hU hy)⟩
  obtain ⟨R', e', k1', k2'⟩ := C28_iff pp hpp p hp o T' U' wT' wU' t u ht hu ha
  rw [ce, e] at e'; cases e'
  have hf : CmpFits R o T U t u := by
    by_contra hn
    obtain ⟨x, hx⟩ := k2.2 hn
    rw [h] at hx; cases hx
  have hb := k1.2 hf
  rw [h] at hb; cases hb
  have h0 := h0 R e
  exact k1'.2 (hf.imp_right (fun ⟨g1, g2, g3⟩ => ⟨g1, g2, g3.imp (apart_of hT hU (h0.imp_right And.left))
    (apart_of hU hT (h0.imp_right And.right))⟩))

/-- Construction, assignment and conversion of a value: a narrower source type changes nothing about a value that was accepted. -/
theorem C93_construct (p : EP) (hp : p.ae = .throw ∨ p.ae = .trap) (S T T' : Opd) (wS : S.Wf) (wT : T.Wf) (wT' : T'.Wf)
    (hT : Narrows T' T) (t v : Int) (ht : T'.Has t) (h : construct p S T t = .ret v) : construct p S T' t = .ret v := by
  have ht0 := has_of hT ht
  obtain ⟨rfl, hS⟩ := C21_any_policy p S T wS wT t v ht0 h
  rcases hp with hp | hp
  · rcases C21_construct p hp S T' wS wT' v ht with g | ⟨_, g⟩ | g
    · exact g.1
    · exact absurd hS g
    · exact absurd hS (C21_rejected p hp S T' wS wT' v ht g v ht).1
  · have k := (C73_construct p hp S T wS wT v ht0).1 (by rw [h]; simp)
    have k' := (C73_construct p hp S T' wS wT' v ht).2 (fun x hx => k x (has_of hT hx))
    rcases C30_construct p hp S T' wS wT' with g | g
    · exact absurd (g v ht) k'
    · exact (g v ht).1

end

/-! ### Where narrowing does harm -/

section
attribute [local instance] lp64

/-- Automatic promotion: `200 + -200` is 0 with operands in `[0, 200]` and `[-200, 0]`. If they are known to be 200 and -200 the sum
is computed in an 8-bit type and throws. -/
theorem C93_automatic_refuted :
    Narrows (Opd.range i16 200 200) (Opd.range i16 0 200) ∧ Narrows (Opd.range i16 (-200) (-200)) (Opd.range i16 (-200) 0) ∧
    arith .automatic strictException .add (Opd.range i16 0 200) (Opd.range i16 (-200) 0) 200 (-200) = .ret 0 ∧
    arith .automatic strictException .add (Opd.range i16 200 200) (Opd.range i16 (-200) (-200)) 200 (-200) =
      .thrown .positive_overflow_error := by
  unfold Narrows; decide +kernel

/-- Remainder: `INT_MIN % -1` is 0 for `safe<int>`; if the divisor is known to be in `[-5, -1]` it is undefined behaviour. -/
theorem C93_modulo_refuted :
    Narrows (Opd.range i32 (-5) (-1)) (Opd.ofSafe i32) ∧
    arith .native strictException .mod (Opd.ofSafe i32) (Opd.ofSafe i32) (-2147483648) (-1) = .ret 0 ∧
    arith .native strictException .mod (Opd.ofSafe i32) (Opd.range i32 (-5) (-1)) (-2147483648) (-1) = .fault .ub := by
  unfold Narrows; decide +kernel

/-- Comparison: `-3 < 7u` is true with `-3` in `[-10, 5]` and `7u` in `[6, 9]`. If the left operand is known to be in `[-10, -1]`,
where the answer is just as obvious, the comparison throws. -/
theorem C93_compare_refuted :
    Narrows (Opd.range i32 (-10) (-1)) (Opd.range i32 (-10) 5) ∧
    compare .native strictException .lt (Opd.range i32 (-10) 5) (Opd.range u32 6 9) (-3) 7 = .ret true ∧
    compare .native strictException .lt (Opd.range i32 (-10) (-1)) (Opd.range u32 6 9) (-3) 7 = .thrown .domain_error := by
  unfold Narrows; decide +kernel

/-- Result types: where every sum overflows, the type of the sum is not empty but has the whole range of `int`, and is wider than that for
operands with smaller values. -/
theorem C93_type_refuted :
    Narrows (Opd.range i32 1000000000 1000000000) (Opd.range i32 0 1000000000) ∧
    Narrows (Opd.range i32 2000000000 2000000000) (Opd.range i32 0 2000000000) ∧
    arithTy .native .add (Opd.range i32 0 1000000000) (Opd.range i32 0 2000000000) = .ret (Opd.range i32 0 2147483647) ∧
    arithTy .native .add (Opd.range i32 1000000000 1000000000) (Opd.range i32 2000000000 2000000000) =
      .ret (Opd.range i32 (-2147483648) 2147483647) := by
  unfold Narrows; decide +kernel

-- a sum that is rejected for the wider types and accepted for the narrower ones, and two nested result types
example : arith .native strictTrap .add (Opd.ofSafe i32) (Opd.ofSafe i32) 7 8 = .fault .illFormed ∧
    arith .native strictTrap .add (Opd.range i32 0 1000) (Opd.range i32 0 1000) 7 8 = .ret 15 ∧
    arith .native strictTrap .add (Opd.range i32 0 10) (Opd.range i32 5 10) 7 8 = .ret 15 ∧
    arithTy .native .add (Opd.range i32 0 1000) (Opd.range i32 0 1000) = .ret (Opd.range i32 0 2000) ∧
    arithTy .native .add (Opd.range i32 0 10) (Opd.range i32 5 10) = .ret (Opd.range i32 5 20) ∧
    Narrows (Opd.range i32 0 10) (Opd.range i32 0 1000) ∧ Rangeless .native := by unfold Narrows Rangeless; decide +kernel

end
end Verif.Props
