import Verif.Proofs.Phase
import Verif.Props.Quiet

/-!
Property C67: what the compiler rejects depends on the types only, never on values (static assertions and ill-formed constants
are all that `illFormed` stands for). A program all of whose operations are accepted never meets a rejected one.
-/

namespace Verif.Spec
section
variable [Arch]

/-- every operator and conversion of the expression is accepted for at least one choice of operands -/
def EAccepted {N : Names} (Γ : Fin n → PTy N) : LExpr N n → Prop
  | .var _ => True
  | .const _ _ => True
  | .lit _ => True
  | .bin o a b => EAccepted Γ a ∧ EAccepted Γ b ∧ ∃ A B, a.ty Γ = .ret A ∧ b.ty Γ = .ret B ∧
      ∃ x y, A.opd.Has x ∧ B.opd.Has y ∧ pBinVal o A B x y ≠ .fault .illFormed
  | .neg a => EAccepted Γ a ∧ ∃ A, a.ty Γ = .ret A ∧ ∃ x, A.opd.Has x ∧ negValOf A x ≠ .fault .illFormed
  | .pos a => EAccepted Γ a
  | .cast S a => EAccepted Γ a ∧ ∃ A, a.ty Γ = .ret A ∧ ∃ x, A.opd.Has x ∧ convTo S A x ≠ .fault .illFormed

/-- every comparison of the condition is accepted for at least one choice of operands -/
def CAccepted {N : Names} (Γ : Fin n → PTy N) : LCond N n → Prop
  | .cmp o a b => EAccepted Γ a ∧ EAccepted Γ b ∧ ∃ A B, a.ty Γ = .ret A ∧ b.ty Γ = .ret B ∧
      ∃ x y, A.opd.Has x ∧ B.opd.Has y ∧ pCompare o A B x y ≠ .fault .illFormed
  | .truth a => EAccepted Γ a ∧ ∃ A, a.ty Γ = .ret A ∧ ∃ x, A.opd.Has x ∧ toBool A.ep A.opd x ≠ .fault .illFormed
  | .not a => CAccepted Γ a
  | .and a b => CAccepted Γ a ∧ CAccepted Γ b
  | .or a b => CAccepted Γ a ∧ CAccepted Γ b

/-- `x op= y` for `x` of type `S` and `y` of type `A`: the operator and the conversion back are accepted for at least one
choice of operands each -/
def OpAssignAccepted {N : Names} (o : Op2) (S A : PTy N) : Prop :=
  (∃ x y, S.opd.Has x ∧ A.opd.Has y ∧ pBinVal o S A x y ≠ .fault .illFormed) ∧
  ∃ V, pBinTy o S A = .ret V ∧ ∃ v, V.opd.Has v ∧ convTo S V v ≠ .fault .illFormed

/-- every statement is accepted for at least one choice of operands -/
def SAccepted {N : Names} (Γ : Fin n → PTy N) : LStmt N n → Prop
  | .skip => True
  | .assign i e => EAccepted Γ e ∧ ∃ A, e.ty Γ = .ret A ∧ ∃ x, A.opd.Has x ∧ convTo (Γ i) A x ≠ .fault .illFormed
  | .opAssign o i e => EAccepted Γ e ∧ ∃ A, e.ty Γ = .ret A ∧ OpAssignAccepted o (Γ i) A
  | .inc i => OpAssignAccepted (.ar .add) (Γ i) (PTy.builtin tInt)
  | .dec i => OpAssignAccepted (.ar .sub) (Γ i) (PTy.builtin tInt)
  | .input i => ∃ old s, (Γ i).opd.Has old ∧ (inputStep (Γ i) old s).1 ≠ .fault .illFormed
  | .output e => EAccepted Γ e ∧ ∃ A, e.ty Γ = .ret A
  | .seq a b => SAccepted Γ a ∧ SAccepted Γ b
  | .ite c a b => CAccepted Γ c ∧ SAccepted Γ a ∧ SAccepted Γ b
  | .while c a => CAccepted Γ c ∧ SAccepted Γ a
  | .tryCatch a b => SAccepted Γ a ∧ SAccepted Γ b

end
end Verif.Spec

namespace Verif.Props
open Spec Lang

section
variable [Arch]

omit [Arch] in
private theorem phase2_of {T U : Opd} {α : Type} {val : Int → Int → Out α} (h : Phase2 T U val)
    (g : ∃ x y, T.Has x ∧ U.Has y ∧ val x y ≠ .fault .illFormed) :
    ∀ t u, T.Has t → U.Has u → val t u ≠ .fault .illFormed := by
  rcases h with h | h
  · obtain ⟨x, y, hx, hy, g⟩ := g
    exact absurd (h x y hx hy) g
  · exact h

omit [Arch] in
private theorem phase1_of {T : Opd} {α : Type} {val : Int → Out α} (h : Phase1 T val)
    (g : ∃ x, T.Has x ∧ val x ≠ .fault .illFormed) : ∀ t, T.Has t → val t ≠ .fault .illFormed := by
  rcases h with h | h
  · obtain ⟨x, hx, g⟩ := g
    exact absurd (h x hx) g
  · exact h

/-- One operator on covered operand types, any promotion policy, exception policies that throw or trap: it is rejected for all
operand values or for none. -/
theorem C67_operator_partial (pp : PP) (hpp : pp.Wf) (p : EP) (hp : p.ae = .throw ∨ p.ae = .trap) (o : Op2) (T U : Opd)
    (hT : T.Wf) (hU : U.Wf) (hc : OpCovered pp p T U o) (t u t' u' : Int) (ht : T.Has t) (hu : U.Has u) (ht' : T.Has t')
    (hu' : U.Has u') :
    o.safeVal pp p T U t u = .fault .illFormed ↔ o.safeVal pp p T U t' u' = .fault .illFormed := by
  rcases op_phase hpp hp hT hU hc with h | h
  · exact ⟨fun _ => h _ _ ht' hu', fun _ => h _ _ ht hu⟩
  · exact ⟨fun g => absurd g (h _ _ ht hu), fun g => absurd g (h _ _ ht' hu')⟩

/-- Comparisons: rejected for all operand values or for none. -/
theorem C67_compare (pp : PP) (hpp : pp.Wf) (p : EP) (hp : p.ae = .throw ∨ p.ae = .trap) (o : Rel) (T U : Opd)
    (hT : T.Wf) (hU : U.Wf) (t u t' u' : Int) (ht : T.Has t) (hu : U.Has u) (ht' : T.Has t') (hu' : U.Has u') :
    compare pp p o T U t u = .fault .illFormed ↔ compare pp p o T U t' u' = .fault .illFormed := by
  rcases cmp_phase hpp hp o hT hU with h | h
  · exact ⟨fun _ => h _ _ ht' hu', fun _ => h _ _ ht hu⟩
  · exact ⟨fun g => absurd g (h _ _ ht hu), fun g => absurd g (h _ _ ht' hu')⟩

/-- Conversions to a safe type: rejected for all values or for none. Here also policies that ignore errors. -/
theorem C67_construct (p : EP) (S T : Opd) (hS : S.Wf) (hT : T.Wf) (t t' : Int) (ht : T.Has t) (ht' : T.Has t') :
    construct p S T t = .fault .illFormed ↔ construct p S T t' = .fault .illFormed := by
  unfold construct
  split
  · exact ⟨nofun, nofun⟩
  · rcases validate_phase (p := p) hS.2.1 hS.2.2.1 hT with h | h
    · exact ⟨fun _ => h _ ht', fun _ => h _ ht⟩
    · exact ⟨fun g => absurd g (h _ ht), fun g => absurd g (h _ ht')⟩

/-- Conversions to a built-in type: rejected for all values or for none. Here also policies that ignore errors. -/
theorem C67_toBuiltin (p : EP) (R : ITy) (T : Opd) (hT : T.Wf) (t t' : Int) (ht : T.Has t) (ht' : T.Has t') :
    toBuiltin p R T t = .fault .illFormed ↔ toBuiltin p R T t' = .fault .illFormed := by
  unfold toBuiltin
  split
  · exact ⟨fun _ => rfl, fun _ => rfl⟩
  · rcases validate_phase (p := p) R.in_min R.in_max (wf_builtin hT.1) with h | h
    · exact ⟨fun _ => h _ (hT.has_in ht'), fun _ => h _ (hT.has_in ht)⟩
    · exact ⟨fun g => absurd g (h _ (hT.has_in ht)), fun g => absurd g (h _ (hT.has_in ht'))⟩

/-- Expressions: if every operator in it is accepted for some operands, the expression is rejected in no state. -/
theorem C67_expr_partial {N : Names} (hN : Careful N) {n : Nat} (Γ : Fin n → PTy N) (hΓ : GoodVars Γ) (s : Fin n → Int)
    (hs : Ranged Γ s) : ∀ e : LExpr N n, ECovered Γ e → EAccepted Γ e → e.eval Γ s ≠ .fault .illFormed
  | .var _, _, _ => nofun
  | .const _ _, _, _ => nofun
  | .lit _, _, _ => nofun
  | .pos a, h, ha => C67_expr_partial hN Γ hΓ s hs a h ha
  | .cast S a, h, ha => by
    obtain ⟨h, hc⟩ := h
    obtain ⟨ha, A, ea, hx⟩ := ha
    have qa := C67_expr_partial hN Γ hΓ s hs a h ha
    simp only [LExpr.eval]
    rw [ea, ret_bind]
    rcases eval_good hN hΓ hs a h with ⟨A', x, ea', wA, vx, hx', mx⟩ | ⟨x, ex⟩ | ex
    · rw [ea] at ea'; obtain rfl := Out.ret.inj ea'
      rw [vx, ret_bind]
      exact phase1_of (conv_phase wA (hc A ea)) hx x hx'
    · rw [ex]; nofun
    · exact absurd ex qa
  | .neg a, h, ha => by
    obtain ⟨h, hc⟩ := h
    obtain ⟨ha, A, ea, hx⟩ := ha
    have qa := C67_expr_partial hN Γ hΓ s hs a h ha
    simp only [LExpr.eval]
    rw [ea, ret_bind]
    rcases eval_good hN hΓ hs a h with ⟨A', x, ea', wA, vx, hx', mx⟩ | ⟨x, ex⟩ | ex
    · rw [ea] at ea'; obtain rfl := Out.ret.inj ea'
      rw [vx, ret_bind]
      exact phase1_of (neg_phase hN wA (hc A ea)) hx x hx'
    · rw [ex]; nofun
    · exact absurd ex qa
  | .bin o a b, h, ha => by
    obtain ⟨h1, h2, hc⟩ := h
    obtain ⟨ha, hb, A, B, ea, eb, hx⟩ := ha
    have qa := C67_expr_partial hN Γ hΓ s hs a h1 ha
    have qb := C67_expr_partial hN Γ hΓ s hs b h2 hb
    simp only [LExpr.eval]
    rw [ea, eb]
    simp only [ret_bind]
    rcases eval_good hN hΓ hs a h1 with ⟨A', x, ea', wA, vx, hx', mx⟩ | ⟨x, ex⟩ | ex
    · rw [ea] at ea'; obtain rfl := Out.ret.inj ea'
      rcases eval_good hN hΓ hs b h2 with ⟨B', y, eb', wB, vy, hy', my⟩ | ⟨y, ey⟩ | ey
      · rw [eb] at eb'; obtain rfl := Out.ret.inj eb'
        rw [vx, vy]
        exact phase2_of (pbin_phase hN wA wB (hc A B ea eb)) hx x y hx' hy'
      · rw [vx, ey]; nofun
      · exact absurd ey qb
    · rw [ex]; nofun
    · exact absurd ex qa

/-- An expression that has a value in one state is accepted. -/
theorem C67_expr_accepted_partial {N : Names} (hN : Careful N) {n : Nat} (Γ : Fin n → PTy N) (hΓ : GoodVars Γ) (s : Fin n → Int)
    (hs : Ranged Γ s) : ∀ (e : LExpr N n) (v : Int), ECovered Γ e → e.eval Γ s = .ret v → EAccepted Γ e
  | .var _, _, _, _ => trivial
  | .const _ _, _, _, _ => trivial
  | .lit _, _, _, _ => trivial
  | .pos a, v, h, hv => C67_expr_accepted_partial hN Γ hΓ s hs a v h hv
  | .cast S a, v, h, hv => by
    simp only [LExpr.eval] at hv
    rcases eval_good hN hΓ hs a h.1 with ⟨A, x, ea, wA, vx, hx, mx⟩ | ⟨x, ex⟩ | ex
    · refine ⟨C67_expr_accepted_partial hN Γ hΓ s hs a x h.1 vx, A, ea, x, hx, ?_⟩
      rw [ea, vx] at hv
      simp only [ret_bind] at hv
      rw [hv]; nofun
    all_goals
      rw [ex] at hv
      rcases ty_st Γ a with ⟨A, ea⟩ | ea <;> rw [ea] at hv <;> cases hv
  | .neg a, v, h, hv => by
    simp only [LExpr.eval] at hv
    rcases eval_good hN hΓ hs a h.1 with ⟨A, x, ea, wA, vx, hx, mx⟩ | ⟨x, ex⟩ | ex
    · refine ⟨C67_expr_accepted_partial hN Γ hΓ s hs a x h.1 vx, A, ea, x, hx, ?_⟩
      rw [ea, vx] at hv
      simp only [ret_bind] at hv
      rw [hv]; nofun
    all_goals
      rw [ex] at hv
      rcases ty_st Γ a with ⟨A, ea⟩ | ea <;> rw [ea] at hv <;> cases hv
  | .bin o a b, v, h, hv => by
    simp only [LExpr.eval] at hv
    rcases ty_st Γ b with ⟨B, eb⟩ | eb
    swap
    · rw [eb] at hv
      rcases ty_st Γ a with ⟨A, ea⟩ | ea <;> rw [ea] at hv <;> cases hv
    rcases eval_good hN hΓ hs a h.1 with ⟨A, x, ea, wA, vx, hx, mx⟩ | ⟨x, ex⟩ | ex
    · rcases eval_good hN hΓ hs b h.2.1 with ⟨B', y, eb', wB, vy, hy, my⟩ | ⟨y, ey⟩ | ey
      · refine ⟨C67_expr_accepted_partial hN Γ hΓ s hs a x h.1 vx, C67_expr_accepted_partial hN Γ hΓ s hs b y h.2.1 vy,
          A, B', ea, eb', x, y, hx, hy, ?_⟩
        rw [ea, eb', vx, vy] at hv
        simp only [ret_bind] at hv
        rw [hv]; nofun
      all_goals
        rw [ea, eb, vx, ey] at hv
        cases hv
    all_goals
      rw [ex, eb] at hv
      rcases ty_st Γ a with ⟨A, ea⟩ | ea <;> rw [ea] at hv <;> cases hv

/-- So an expression that has a value in one state within the ranges is rejected in none. -/
theorem C67_expr_uniform_partial {N : Names} (hN : Careful N) {n : Nat} (Γ : Fin n → PTy N) (hΓ : GoodVars Γ)
    (e : LExpr N n) (he : ECovered Γ e) (s s' : Fin n → Int) (hs : Ranged Γ s) (hs' : Ranged Γ s') (v : Int)
    (hv : e.eval Γ s = .ret v) : e.eval Γ s' ≠ .fault .illFormed :=
  C67_expr_partial hN Γ hΓ s' hs' e he (C67_expr_accepted_partial hN Γ hΓ s hs e v he hv)

/-- Conditions: if every operator and comparison in it is accepted for some operands, the condition is rejected in no state. -/
theorem C67_cond_partial {N : Names} (hN : Careful N) {n : Nat} (Γ : Fin n → PTy N) (hΓ : GoodVars Γ) (s : Fin n → Int)
    (hs : Ranged Γ s) : ∀ c : LCond N n, CCovered Γ c → CAccepted Γ c → c.eval Γ s ≠ .fault .illFormed
  | .cmp o a b, h, ha => by
    obtain ⟨h1, h2, hc⟩ := h
    obtain ⟨ha, hb, A, B, ea, eb, hx⟩ := ha
    have qa := C67_expr_partial hN Γ hΓ s hs a h1 ha
    have qb := C67_expr_partial hN Γ hΓ s hs b h2 hb
    simp only [LCond.eval]
    rw [ea, eb]
    simp only [ret_bind]
    rcases eval_good hN hΓ hs a h1 with ⟨A', x, ea', wA, vx, hx', mx⟩ | ⟨x, ex⟩ | ex
    · rw [ea] at ea'; obtain rfl := Out.ret.inj ea'
      rcases eval_good hN hΓ hs b h2 with ⟨B', y, eb', wB, vy, hy', my⟩ | ⟨y, ey⟩ | ey
      · rw [eb] at eb'; obtain rfl := Out.ret.inj eb'
        rw [vx, vy]
        exact phase2_of (pcmp_phase hN o wA wB (hc A B ea eb)) hx x y hx' hy'
      · rw [vx, ey]; nofun
      · exact absurd ey qb
    · rw [ex]; nofun
    · exact absurd ex qa
  | .truth a, h, ha => by
    obtain ⟨ha, A, ea, hx⟩ := ha
    have qa := C67_expr_partial hN Γ hΓ s hs a h ha
    simp only [LCond.eval]
    rw [ea, ret_bind]
    rcases eval_good hN hΓ hs a h with ⟨A', x, ea', wA, vx, hx', mx⟩ | ⟨x, ex⟩ | ex
    · rw [ea] at ea'; obtain rfl := Out.ret.inj ea'
      rw [vx, ret_bind]
      exact phase1_of (truth_phase wA) hx x hx'
    · rw [ex]; nofun
    · exact absurd ex qa
  | .not a, h, ha => by
    have q := C67_cond_partial hN Γ hΓ s hs a h ha
    simp only [LCond.eval]
    rcases cond_good hN hΓ hs a h with ⟨b, h1, h2⟩ | ⟨e, h⟩ | h
    · rw [h1]; nofun
    · rw [h]; nofun
    · exact absurd h q
  | .and a b, h, ha => by
    have q := C67_cond_partial hN Γ hΓ s hs a h.1 ha.1
    simp only [LCond.eval]
    rcases cond_good hN hΓ hs a h.1 with ⟨x, h1, h2⟩ | ⟨e, h⟩ | h
    · rw [h1]
      cases x
      · nofun
      · exact C67_cond_partial hN Γ hΓ s hs b h.2 ha.2
    · rw [h]; nofun
    · exact absurd h q
  | .or a b, h, ha => by
    have q := C67_cond_partial hN Γ hΓ s hs a h.1 ha.1
    simp only [LCond.eval]
    rcases cond_good hN hΓ hs a h.1 with ⟨x, h1, h2⟩ | ⟨e, h⟩ | h
    · rw [h1]
      cases x
      · exact C67_cond_partial hN Γ hΓ s hs b h.2 ha.2
      · nofun
    · rw [h]; nofun
    · exact absurd h q

theorem assign_accepted {N : Names} (hN : Careful N) {n : Nat} {Γ : Fin n → PTy N} (hΓ : GoodVars Γ) {s : Fin n → Int}
    (hs : Ranged Γ s) {i : Fin n} {e : LExpr N n} (hc : SCovered Γ (.assign i e)) (ha : SAccepted Γ (.assign i e)) :
    assignVal Γ s i e ≠ .fault .illFormed := by
  obtain ⟨ha, A, ea, hx⟩ := ha
  have q := C67_expr_partial hN Γ hΓ s hs e hc.1 ha
  unfold assignVal
  rw [ea, ret_bind]
  rcases eval_good hN hΓ hs e hc.1 with ⟨A', x, ea', wA, vx, hx', mx⟩ | ⟨x, ex⟩ | ex
  · rw [ea] at ea'; obtain rfl := Out.ret.inj ea'
    rw [vx, ret_bind]
    exact phase1_of (conv_phase wA (hc.2 A ea)) hx x hx'
  · rw [ex]; nofun
  · exact absurd ex q

theorem opAssign_accepted {N : Names} (hN : Careful N) {n : Nat} {Γ : Fin n → PTy N} (hΓ : GoodVars Γ) {s : Fin n → Int}
    (hs : Ranged Γ s) {o : Op2} {i : Fin n} {e : LExpr N n} (hc : AssignCovered Γ o i e) (ha : EAccepted Γ e) {A : PTy N}
    (ea : e.ty Γ = .ret A) (hx : OpAssignAccepted o (Γ i) A) : opAssignVal Γ s o i e ≠ .fault .illFormed := by
  have q := C67_expr_partial hN Γ hΓ s hs e hc.1 ha
  obtain ⟨hx, V, eV, hv⟩ := hx
  unfold opAssignVal
  rw [ea, ret_bind]
  rcases eval_good hN hΓ hs e hc.1 with ⟨A', x, ea', wA, vx, hx', mx⟩ | ⟨x, ex⟩ | ex
  · rw [ea] at ea'; obtain rfl := Out.ret.inj ea'
    rw [vx, eV]
    simp only [ret_bind]
    have qb := phase2_of (pbin_phase hN (hΓ i).1 wA (hc.2 A ea)) hx (s i) x (hs i) hx'
    rcases pbin_good hN (hΓ i).1 wA (hc.2 A ea) (hs i) hx' with ⟨S', v, es', wS, hv', hS, hm⟩ | ⟨x, ex⟩ | ex
    · rw [eV] at es'; obtain rfl := Out.ret.inj es'
      rw [hv', ret_bind]
      exact phase1_of (conv_phase wS ⟨(hΓ i).1, (hΓ i).2, Or.inr (Or.inl (pBinTy_safe (hc.2 A ea).1 eV))⟩) hv v hS
    · rw [ex]; nofun
    · exact absurd ex qb
  · rw [ex]; nofun
  · exact absurd ex q

private theorem storing_accepted {n : Nat} {s s' : LState n} {i : Fin n} {r : Out Int} (h : r ≠ .fault .illFormed) :
    some (storing s i r) ≠ some (.fault .illFormed, s') := by
  cases r with
  | ret v => nofun
  | thrown e => nofun
  | fault k => intro g; cases g; exact h rfl

/-- Whole programs: if every operation is accepted for some operands, no execution, of any length, from any state within the
ranges, with any input, meets a rejected one. -/
theorem C67_program_partial {N : Names} (hN : Careful N) {n : Nat} (Γ : Fin n → PTy N) (hΓ : GoodVars Γ) :
    ∀ (f : Nat) (p : LStmt N n) (s s' : LState n), SCovered Γ p → SAccepted Γ p → Ranged Γ s.st →
      p.exec Γ f s ≠ some (.fault .illFormed, s')
  | 0, p, s, _, _, _, _ => by cases p <;> nofun
  | f + 1, .skip, s, _, _, _, _ => nofun
  | f + 1, .assign i e, s, s', hc, ha, hs => storing_accepted (assign_accepted hN hΓ hs hc ha)
  | f + 1, .opAssign o i e, s, s', hc, ⟨ha, _, ea, hx⟩, hs => storing_accepted (opAssign_accepted hN hΓ hs hc ha ea hx)
  | f + 1, .inc i, s, s', hc, ha, hs =>
    storing_accepted (opAssign_accepted hN hΓ hs (inc_covered hc (Or.inl rfl)) trivial rfl ha)
  | f + 1, .dec i, s, s', hc, ha, hs =>
    storing_accepted (opAssign_accepted hN hΓ hs (inc_covered hc (Or.inr rfl)) trivial rfl ha)
  | f + 1, .input i, s, s', hc, ha, hs => by
    obtain ⟨c1, c2, c3, c4⟩ := hc
    have hsafe : (Γ i).opd.kind = .safe := (hΓ i).2.resolve_left (isSafe_kind c1)
    have e : ∀ old s, inputStep (Γ i) old s = Verif.input (Γ i).ep (Γ i).opd old s := fun old s => by
      unfold inputStep; rw [c1, if_pos rfl]
    obtain ⟨old, s0, ho, ha⟩ := ha
    rw [e] at ha
    simp only [LStmt.exec, e]
    rcases input_phase (ep_careful hN ((hΓ i).1.2.2.1 hsafe).2) (hΓ i).1.1 c2 with h | h
    · exact absurd (h old s0 ho) ha
    · intro g
      exact h (s.st i) s.inp (hs i) (Prod.mk.inj (Option.some.inj g)).1
  | f + 1, .output e, s, s', hc, ⟨ha, A, ea⟩, hs => by
    have q := C67_expr_partial hN Γ hΓ s.st hs e hc.1 ha
    simp only [LStmt.exec]
    rw [ea, ret_bind]
    rcases eval_good hN hΓ hs e hc.1 with ⟨A', x, ea', wA, vx, hx, mx⟩ | ⟨x, ex⟩ | ex
    · rw [ea] at ea'; obtain rfl := Out.ret.inj ea'
      rw [vx, ret_bind]
      have : outputStep A x = .ret (printInt x) := output_good wA (hc.2 A ea) hx
      rw [this]; nofun
    · rw [ex]; nofun
    · exact absurd ex q
  | f + 1, .seq a b, s, s', hc, ha, hs => by
    simp only [LStmt.exec]
    rcases h : a.exec Γ f s with _ | ⟨o, s1⟩
    · nofun
    · have q := C67_program_partial hN Γ hΓ f a s s1 hc.1 ha.1 hs
      have r := (C59_safe_partial hN Γ hΓ a hc.1 f s s1 o hs h).2
      rw [h] at q
      cases o with
      | ret _ => exact C67_program_partial hN Γ hΓ f b s1 s' hc.2 ha.2 r
      | thrown e => nofun
      | fault k => intro g; cases g; exact q rfl
  | f + 1, .ite c a b, s, s', hc, ha, hs => by
    simp only [LStmt.exec]
    have q := C67_cond_partial hN Γ hΓ s.st hs c hc.1 ha.1
    rcases cond_good hN hΓ hs c hc.1 with ⟨x, h1, h2⟩ | ⟨e, h⟩ | h
    · rw [h1]
      cases x
      · exact C67_program_partial hN Γ hΓ f b s s' hc.2.2 ha.2.2 hs
      · exact C67_program_partial hN Γ hΓ f a s s' hc.2.1 ha.2.1 hs
    · rw [h]; nofun
    · exact absurd h q
  | f + 1, .while c a, s, s', hc, ha, hs => by
    simp only [LStmt.exec]
    have q := C67_cond_partial hN Γ hΓ s.st hs c hc.1 ha.1
    rcases cond_good hN hΓ hs c hc.1 with ⟨x, h1, h2⟩ | ⟨e, h⟩ | h
    · rw [h1]
      cases x
      · nofun
      · dsimp only
        rcases h : a.exec Γ f s with _ | ⟨o, s1⟩
        · nofun
        · have q := C67_program_partial hN Γ hΓ f a s s1 hc.2 ha.2 hs
          have r := (C59_safe_partial hN Γ hΓ a hc.2 f s s1 o hs h).2
          rw [h] at q
          cases o with
          | ret _ => exact C67_program_partial hN Γ hΓ f (.while c a) s1 s' hc ha r
          | thrown e => nofun
          | fault k => intro g; cases g; exact q rfl
    · rw [h]; nofun
    · exact absurd h q
  | f + 1, .tryCatch a b, s, s', hc, ha, hs => by
    simp only [LStmt.exec]
    rcases h : a.exec Γ f s with _ | ⟨o, s1⟩
    · nofun
    · have q := C67_program_partial hN Γ hΓ f a s s1 hc.1 ha.1 hs
      have r := (C59_safe_partial hN Γ hΓ a hc.1 f s s1 o hs h).2
      rw [h] at q
      cases o with
      | ret _ => nofun
      | thrown e => exact C67_program_partial hN Γ hΓ f b _ s' hc.2 ha.2 r
      | fault k => intro g; cases g; exact q rfl

/-- C66 and C67 together: an accepted program whose values all fit does exactly what the integer program does. -/
theorem C67_total_partial {N : Names} (hN : Careful N) {n : Nat} (Γ : Fin n → PTy N) (hΓ : GoodVars Γ) (f : Nat) (p : LStmt N n)
    (s : LState n) (hc : SCovered Γ p) (ha : SAccepted Γ p) (hs : Ranged Γ s.st) (hi : StreamOk s.inp)
    (hf : SFits Γ f p (abst s)) :
    (p.exec Γ f s = none ∧ iexec f p (abst s) = none) ∨
    (∃ s', p.exec Γ f s = some (.ret (), s') ∧ iexec f p (abst s) = some (some (abst s')) ∧ s'.caught = s.caught) := by
  rcases C66_program_partial hN Γ hΓ f p s hc hs hi hf with h | ⟨s', h1, h2, h3, _⟩ | ⟨s', h⟩
  · exact Or.inl h
  · exact Or.inr ⟨s', h1, h2, h3⟩
  · exact absurd h (C67_program_partial hN Γ hΓ f p s s' hc ha hs)

end

/-! ### Euclid's algorithm, correct for all inputs -/

namespace Euclid
attribute [local instance] lp64

theorem accepted : SAccepted Γ gcd := by
  refine ⟨⟨trivial, trivial, w, PTy.builtin i32, rfl, rfl, 0, 0, by decide +kernel, by decide +kernel, by decide +kernel⟩,
    ⟨⟨trivial, trivial, w, w, rfl, rfl, 1, 1, by decide +kernel, by decide +kernel, by decide +kernel⟩,
      w, by decide +kernel, 0, by decide +kernel, by decide +kernel⟩,
    ⟨trivial, w, rfl, 0, by decide +kernel, by decide +kernel⟩, trivial, w, rfl, 0, by decide +kernel, by decide +kernel⟩

/-- over the integers the loop ends with the greatest common divisor -/
theorem igcd : ∀ (k : Nat) (s : IState 3), 0 ≤ s.st 0 → s.st 1 = k →
    ∃ s', iexec (k + 4) gcd s = some (some s') ∧ s'.st 0 = Int.gcd (s.st 0) (s.st 1) := by
  intro k
  induction k using Nat.strong_induction_on with
  | _ k ih =>
    intro s h0 h1
    rcases Nat.eq_zero_or_pos k with rfl | hk
    · refine ⟨s, ?_, ?_⟩
      · unfold gcd iexec
        rw [cond, h1]; rfl
      · rw [h1]; simp [Int.gcd, abs_of_nonneg h0]
    · have hb : s.st 1 ≠ 0 := by omega
      have e : (s.st 0).tmod (s.st 1) = s.st 0 % s.st 1 := Int.tmod_eq_emod_of_nonneg h0
      have m1 := Int.emod_nonneg (s.st 0) hb
      have m2 := Int.emod_lt_of_pos (s.st 0) (show 0 < s.st 1 by omega)
      set s1 := ((s.write 2 ((s.st 0).tmod (s.st 1))).write 0 (s.st 1)).write 1 ((s.st 0).tmod (s.st 1)) with hs1
      have a0 : s1.st 0 = s.st 1 := rfl
      have a1 : s1.st 1 = s.st 0 % s.st 1 := e
      obtain ⟨s', g1, g2⟩ := ih (s.st 0 % s.st 1).toNat (by omega) s1 (by rw [a0]; omega) (by rw [a1]; omega)
      refine ⟨s', ?_, ?_⟩
      · have step1 : iexec (k + 4) gcd s = iexec (k + 3) gcd s1 := by
          conv_lhs => unfold gcd iexec
          rw [cond, decide_eq_true hb]
          simp only [istep k s hb]
          rfl
        rw [step1]
        exact C60_bound _ _ _ _ g1 _ (by omega)
      · rw [g2, a0, a1, Int.gcd_comm, Int.gcd_emod]

end Euclid

section
attribute [local instance] lp64
open Euclid

/-- For all values of the variables: the program ends, without an exception, and `a` is the greatest common divisor. -/
theorem C67_gcd (s : LState 3) (hs : Ranged Γ s.st) (hi : StreamOk s.inp) :
    ∃ f s', Euclid.gcd.exec Γ f s = some (.ret (), s') ∧ s'.st 0 = Int.gcd (s.st 0) (s.st 1) ∧ s'.caught = s.caught := by
  obtain ⟨s', h1, h2⟩ := igcd (s.st 1).toNat (abst s) (hs 0).1 (by
    have := (hs 1).1
    have h : (0 : Int) ≤ s.st 1 := this
    show s.st 1 = _
    omega)
  rcases C67_total_partial careful Γ good ((s.st 1).toNat + 4) gcd s covered accepted hs hi (fits _ (abst s) hs) with
    ⟨_, h⟩ | ⟨s'', g1, g2, g3⟩
  · rw [h] at h1; cases h1
  · rw [h1] at g2
    have e : s' = abst s'' := Option.some.inj (Option.some.inj g2)
    refine ⟨_, s'', g1, ?_, g3⟩
    rw [e] at h2
    exact h2

end
end Verif.Props
