import Verif.Proofs.Run
import Verif.Proofs.Fits
import Verif.ExamplesSpec

/-!
Derived rules for programs that either do something or throw, depending on a condition.
-/

namespace Verif.Run
open Spec Lang

section
variable [Arch] {N : Names} {n : Nat} {Γ : Fin n → PTy N}

omit [Arch] in
private theorem ret_bind {α β : Type} (a : α) (f : α → Out β) : (Out.ret a >>= f) = f a := rfl

omit [Arch] in
private theorem thrown_bind {α β : Type} (x : Err) (f : α → Out β) : (Out.thrown x >>= f) = .thrown x := rfl

/-- in the state `s` the expression `e`, of type `T`, has the value `v` if `P`, otherwise it throws -/
structure Ex (Γ : Fin n → PTy N) (s : Fin n → Int) (e : LExpr N n) (T : PTy N) (P : Prop) (v : Int) : Prop where
  ty : e.ty Γ = .ret T
  wf : PTy.Wf T
  yes : P → e.eval Γ s = .ret v ∧ T.opd.Has v
  no : ¬ P → ∃ x, e.eval Γ s = .thrown x

theorem Ev.ex {s : Fin n → Int} {e : LExpr N n} {T : PTy N} {v : Int} (h : Ev Γ s e T v) : Ex Γ s e T True v :=
  ⟨h.ty, h.wf, fun _ => ⟨h.eval, h.has⟩, fun h => absurd trivial h⟩

theorem Ex.iff {s : Fin n → Int} {e : LExpr N n} {T : PTy N} {P Q : Prop} {v : Int} (h : Ex Γ s e T P v) (hq : P ↔ Q) :
    Ex Γ s e T Q v := by rw [← propext hq]; exact h

theorem Ex.ev {s : Fin n → Int} {e : LExpr N n} {T : PTy N} {P : Prop} {v : Int} (h : Ex Γ s e T P v) (hp : P) :
    Ev Γ s e T v := ⟨h.ty, (h.yes hp).1, h.wf, (h.yes hp).2⟩

/-- an operator: exact if the operation fits, otherwise it throws -/
theorem Chk.gives {o : Op2} {T U : PTy N} {q : N.P} {e : N.E} {R : ITy} {S : PTy N} {x y : Int}
    (h : Chk o T U q e R S x y) (hN : Careful N) (hT : PTy.Wf T) (hU : PTy.Wf U) {t u : Int} (ht : T.opd.Has t)
    (hu : U.opd.Has u) :
    (TyFits R o T.opd U.opd t u → ∃ v, imath o t u = some v ∧ pBinVal o T U t u = .ret v ∧ S.opd.Has v) ∧
    (¬ TyFits R o T.opd U.opd t u → ∃ x, pBinVal o T U t u = .thrown x) := by
  have hb : BinFits o T U t u ↔ TyFits R o T.opd U.opd t u := by
    constructor
    · intro g; exact g q R h.pr h.res
    · intro g q' R' hq hR
      rw [h.pr] at hq; cases hq
      have := Out.ret.inj (h.res.symm.trans hR); subst this
      exact g
  rw [← hb]
  rcases pbin_good hN hT hU h.covered ht hu with ⟨S', v', e1, w, e2, hS, e3⟩ | ⟨x, hx⟩ | hx
  · rw [h.ty] at e1; cases e1
    exact ⟨fun _ => ⟨v', e3, e2, hS⟩, fun g => absurd (pbin_fits hN hT hU h.covered ht hu e2) g⟩
  · exact ⟨fun g => absurd hx (pbin_quiet hN hT hU h.covered ht hu g x), fun _ => ⟨x, hx⟩⟩
  · exact absurd hx (phase2_of (pbin_phase hN hT hU h.covered) h.hx h.hy h.acc ht hu)

theorem ChkConv.gives {S T : PTy N} {x : Int} (h : ChkConv S T x) (hN : Careful N) (hS : PTy.Wf S) (hl : NotLit S.opd)
    (hT : PTy.Wf T) {t : Int} (ht : T.opd.Has t) :
    (S.opd.Has t → convTo S T t = .ret t) ∧ (¬ S.opd.Has t → ∃ x, convTo S T t = .thrown x) := by
  have hc : ConvCovered S T := ⟨hS, hl, h.safe.elim Or.inl (fun h => Or.inr (Or.inl h))⟩
  rcases conv_good hN hT hc ht with h' | ⟨x, hx⟩ | hx
  · exact ⟨fun _ => h'.1, fun g => absurd h'.2 g⟩
  · exact ⟨fun g => absurd hx (conv_quiet hN hT hc ht g x), fun _ => ⟨x, hx⟩⟩
  · exact absurd hx (phase1_of (conv_phase hT hc) h.hx h.acc ht)

theorem ChkCmp.gives {o : Rel} {T U : PTy N} {q : N.P} {e : N.E} {R R' : ITy} {x y : Int} (h : ChkCmp o T U q e R R' x y)
    (hN : Careful N) (hT : PTy.Wf T) (hU : PTy.Wf U) {t u : Int} (ht : T.opd.Has t) (hu : U.opd.Has u)
    {R1 : ITy} (hR : cmpType (N.prom q) o T.opd U.opd = .ret R1) :
    (CmpFits R1 o T.opd U.opd t u → pCompare o T U t u = .ret (rel o t u)) ∧
    (¬ CmpFits R1 o T.opd U.opd t u → ∃ x, pCompare o T U t u = .thrown x) := by
  have e0 : pCompare o T U t u = compare (N.prom q) (N.act e) o T.opd U.opd t u := by
    unfold pCompare; rw [isSafe_or h.safe, if_pos rfl, h.pr, h.ex]; rfl
  rcases compare_good hN (o := o) hT hU (Or.inl h.safe) ht hu with h' | ⟨x, hx⟩ | hx
  · refine ⟨fun _ => h', fun g => absurd ?_ g⟩
    rw [e0] at h'
    exact cmp_fits (hN.1 e) hT.1 hU.1 ht hu h' hR
  · refine ⟨fun g => absurd (e0 ▸ hx) (cmp_quiet (hN.2 q) (hN.1 e) o hT.1 hU.1 ht hu (fun R2 h2 => ?_) x), fun _ => ⟨x, hx⟩⟩
    have := Out.ret.inj (hR.symm.trans h2); subst this; exact g
  · exact absurd hx (phase2_of (pcmp_phase hN o hT hU (Or.inl h.safe)) h.hx h.hy h.acc ht hu)

theorem ex_bin (hN : Careful N) {s : Fin n → Int} {o : Op2} {a b : LExpr N n} {T U S : PTy N} {t u v : Int} {P1 P2 P3 : Prop}
    (ha : Ex Γ s a T P1 t) (hb : Ex Γ s b U P2 u) {q : N.P} {e : N.E} {R : ITy} {x y : Int} (h : Chk o T U q e R S x y)
    (wS : PTy.Wf S) (hv : P1 → P2 → P3 → imath o t u = some v) (hf : P1 → P2 → (TyFits R o T.opd U.opd t u ↔ P3)) :
    Ex Γ s (.bin o a b) S (P1 ∧ P2 ∧ P3) v := by
  refine ⟨by simp only [LExpr.ty, ha.ty, hb.ty, ret_bind]; exact h.ty, wS, ?_, ?_⟩
  · intro ⟨p1, p2, p3⟩
    obtain ⟨a1, a2⟩ := ha.yes p1
    obtain ⟨b1, b2⟩ := hb.yes p2
    obtain ⟨w, w1, w2, w3⟩ := (h.gives hN ha.wf hb.wf a2 b2).1 ((hf p1 p2).2 p3)
    rw [hv p1 p2 p3] at w1; cases w1
    simp only [LExpr.eval, ha.ty, hb.ty, a1, b1, ret_bind]
    exact ⟨w2, w3⟩
  · intro hn
    by_cases p1 : P1
    · obtain ⟨a1, a2⟩ := ha.yes p1
      by_cases p2 : P2
      · obtain ⟨b1, b2⟩ := hb.yes p2
        obtain ⟨w, hw⟩ := (h.gives hN ha.wf hb.wf a2 b2).2 (fun g => hn ⟨p1, p2, (hf p1 p2).1 g⟩)
        exact ⟨w, by simp only [LExpr.eval, ha.ty, hb.ty, a1, b1, ret_bind]; exact hw⟩
      · obtain ⟨w, hw⟩ := hb.no p2
        exact ⟨w, by simp only [LExpr.eval, ha.ty, hb.ty, a1, hw, ret_bind, thrown_bind]⟩
    · obtain ⟨w, hw⟩ := ha.no p1
      exact ⟨w, by simp only [LExpr.eval, ha.ty, hb.ty, hw, ret_bind, thrown_bind]⟩

theorem ex_cast (hN : Careful N) {s : Fin n → Int} {a : LExpr N n} {S T : PTy N} {t x : Int} {P : Prop} (ha : Ex Γ s a T P t)
    (hS : PTy.Wf S) (hl : NotLit S.opd) (h : ChkConv S T x) : Ex Γ s (.cast S a) S (P ∧ S.opd.Has t) t := by
  refine ⟨rfl, hS, ?_, ?_⟩
  · intro ⟨p, hs⟩
    obtain ⟨a1, a2⟩ := ha.yes p
    simp only [LExpr.eval, ha.ty, a1, ret_bind]
    exact ⟨(h.gives hN hS hl ha.wf a2).1 hs, hs⟩
  · intro hn
    by_cases p : P
    · obtain ⟨a1, a2⟩ := ha.yes p
      obtain ⟨w, hw⟩ := (h.gives hN hS hl ha.wf a2).2 (fun g => hn ⟨p, g⟩)
      exact ⟨w, by simp only [LExpr.eval, ha.ty, a1, ret_bind]; exact hw⟩
    · obtain ⟨w, hw⟩ := ha.no p
      exact ⟨w, by simp only [LExpr.eval, ha.ty, hw, ret_bind, thrown_bind]⟩

/-! ### statements -/

theorem does_iff {p : LStmt N n} {s s' : LState n} {P Q : Prop} (hq : P ↔ Q) (h : Does Γ p s P s') : Does Γ p s Q s' := by
  rw [← propext hq]; exact h

theorem does_storing {p : LStmt N n} {s : LState n} {i : Fin n} {r : Out Int} {P : Prop} {v : Int}
    (hp : ∀ f, p.exec Γ (f + 1) s = some (storing s i r)) (yes : P → r = .ret v) (no : ¬ P → ∃ x, r = .thrown x) :
    Does Γ p s P (s.write i v) := by
  refine ⟨fun h => ⟨1, fun f hf => ?_⟩, fun h => ?_⟩
  · obtain ⟨g, rfl⟩ : ∃ g, f = g + 1 := ⟨f - 1, by omega⟩
    rw [hp, yes h]; rfl
  · obtain ⟨x, hx⟩ := no h
    refine ⟨x, s, 1, fun f hf => ?_⟩
    obtain ⟨g, rfl⟩ : ∃ g, f = g + 1 := ⟨f - 1, by omega⟩
    rw [hp, hx]; rfl

theorem does_assign (hN : Careful N) (hΓ : GoodVars Γ) {s : LState n} {i : Fin n} {a : LExpr N n} {S T : PTy N} {t x : Int}
    {P : Prop} (ha : Ex Γ s.st a T P t) (hi : Γ i = S) (h : ChkConv S T x) :
    Does Γ (.assign i a) s (P ∧ S.opd.Has t) (s.write i t) := by
  subst hi
  refine does_storing (r := assignVal Γ s.st i a) (fun f => rfl) ?_ ?_
  · intro ⟨p, hs⟩
    obtain ⟨a1, a2⟩ := ha.yes p
    simp only [assignVal, ha.ty, a1, ret_bind]
    exact (h.gives hN (hΓ i).1 (hΓ i).2 ha.wf a2).1 hs
  · intro hn
    by_cases p : P
    · obtain ⟨a1, a2⟩ := ha.yes p
      obtain ⟨w, hw⟩ := (h.gives hN (hΓ i).1 (hΓ i).2 ha.wf a2).2 (fun g => hn ⟨p, g⟩)
      exact ⟨w, by simp only [assignVal, ha.ty, a1, ret_bind]; exact hw⟩
    · obtain ⟨w, hw⟩ := ha.no p
      exact ⟨w, by simp only [assignVal, ha.ty, hw, ret_bind, thrown_bind]⟩

/-- assignment of a variable -/
theorem does_init (hN : Careful N) (hΓ : GoodVars Γ) {s : LState n} (i j : Fin n) {S T : PTy N} (x : Int) {v : Int} (hi : Γ i = S)
    (hj : Γ j = T) (h : ChkConv S T x) (hv : s.st j = v) (ht : T.opd.Has v) :
    Does Γ (.assign i (.var j)) s (S.opd.Has v) (s.write i v) :=
  does_iff (P := True ∧ S.opd.Has v) (by simp) (does_assign hN hΓ (ev_var hΓ j hj hv ht).ex hi h)

/-- assignment between variables of the same built-in type -/
theorem does_copy {s : LState n} {i : Fin n} {a : LExpr N n} {B : ITy} {t : Int} (hi : Γ i = PTy.builtin B)
    (ha : Ev Γ s.st a (PTy.builtin B) t) : Does Γ (.assign i a) s True (s.write i t) := by
  refine does_storing (r := assignVal Γ s.st i a) (fun f => rfl) (fun _ => ?_) (fun h => absurd trivial h)
  simp only [assignVal, ha.ty, ha.eval, ret_bind, hi]
  have := conv_of_in ha.has
  exact congrArg Out.ret this

/-- the value of `x op= e` -/
theorem opAssign_gives (hN : Careful N) (hΓ : GoodVars Γ) {s : Fin n → Int} {o : Op2} {i : Fin n} {a : LExpr N n} {S T U : PTy N}
    {t u v : Int} {P3 : Prop} (hi : Γ i = T) (ht : T.opd.Has t) (hs : s i = t) (ha : Ev Γ s a U u) {q : N.P} {e : N.E} {R : ITy}
    {x y z : Int} (h : Chk o T U q e R S x y) (wS : PTy.Wf S) (hc : ChkConv T S z) (hv : P3 → imath o t u = some v)
    (hf : TyFits R o T.opd U.opd t u ↔ P3) :
    (P3 ∧ T.opd.Has v → opAssignVal Γ s o i a = .ret v) ∧ (¬ (P3 ∧ T.opd.Has v) → ∃ x, opAssignVal Γ s o i a = .thrown x) := by
  subst hi hs
  have h0 := h.gives hN (hΓ i).1 ha.wf ht ha.has
  constructor
  · intro ⟨p3, hs⟩
    obtain ⟨w, w1, w2, w3⟩ := h0.1 (hf.2 p3)
    rw [hv p3] at w1; cases w1
    simp only [opAssignVal, ha.ty, ha.eval, ret_bind, h.ty, w2]
    exact (hc.gives hN (hΓ i).1 (hΓ i).2 wS w3).1 hs
  · intro hn
    by_cases p3 : P3
    · obtain ⟨w, w1, w2, w3⟩ := h0.1 (hf.2 p3)
      rw [hv p3] at w1; cases w1
      obtain ⟨x, hx⟩ := (hc.gives hN (hΓ i).1 (hΓ i).2 wS w3).2 (fun g => hn ⟨p3, g⟩)
      exact ⟨x, by simp only [opAssignVal, ha.ty, ha.eval, ret_bind, h.ty, w2]; exact hx⟩
    · obtain ⟨x, hx⟩ := h0.2 (fun g => p3 (hf.1 g))
      exact ⟨x, by simp only [opAssignVal, ha.ty, ha.eval, ret_bind, h.ty, hx, thrown_bind]⟩

theorem does_output {s : LState n} {a : LExpr N n} {T : PTy N} {t : Int} {P : Prop} (ha : Ex Γ s.st a T P t)
    (hs : T.isSafe = true) : Does Γ (.output a) s P { s with out := s.out ++ printInt t } := by
  refine ⟨fun p => ⟨1, fun f hf => ?_⟩, fun p => ?_⟩
  · obtain ⟨g, rfl⟩ : ∃ g, f = g + 1 := ⟨f - 1, by omega⟩
    obtain ⟨a1, a2⟩ := ha.yes p
    have ho : outputStep T t = .ret (printInt t) := by
      unfold outputStep; rw [if_pos hs]; exact congrArg Out.ret (Props.C51_output _ ha.wf.1 _ a2)
    simp only [LStmt.exec, ha.ty, a1, ret_bind, ho]
  · obtain ⟨x, hx⟩ := ha.no p
    refine ⟨x, s, 1, fun f hf => ?_⟩
    obtain ⟨g, rfl⟩ : ∃ g, f = g + 1 := ⟨f - 1, by omega⟩
    simp only [LStmt.exec, ha.ty, hx, ret_bind, thrown_bind]

theorem does_seq {a b : LStmt N n} {s s1 s2 : LState n} {P Q : Prop} (h1 : Does Γ a s P s1) (h2 : P → Does Γ b s1 Q s2) :
    Does Γ (.seq a b) s (P ∧ Q) s2 := by
  refine ⟨fun ⟨p, q⟩ => ends_seq (h1.1 p) ((h2 p).1 q), fun hn => ?_⟩
  by_cases p : P
  · obtain ⟨x, s', h⟩ := (h2 p).2 (fun q => hn ⟨p, q⟩)
    exact ⟨x, s', ends_seq (h1.1 p) h⟩
  · obtain ⟨x, s', h⟩ := h1.2 p
    exact ⟨x, s', ends_seq_throw h⟩

theorem does_ite {c : LCond N n} {a b : LStmt N n} {s s' : LState n} {v : Bool} {P Q : Prop} (yes : P → c.eval Γ s.st = .ret v)
    (no : ¬ P → ∃ x, c.eval Γ s.st = .thrown x) (h : P → Does Γ (if v then a else b) s Q s') :
    Does Γ (.ite c a b) s (P ∧ Q) s' := by
  refine ⟨fun ⟨p, q⟩ => ends_ite (yes p) ((h p).1 q), fun hn => ?_⟩
  by_cases p : P
  · obtain ⟨x, s', h⟩ := (h p).2 (fun q => hn ⟨p, q⟩)
    exact ⟨x, s', ends_ite (yes p) h⟩
  · obtain ⟨x, hx⟩ := no p
    refine ⟨x, s, 1, fun f hf => ?_⟩
    obtain ⟨g, rfl⟩ : ∃ g, f = g + 1 := ⟨f - 1, by omega⟩
    simp only [LStmt.exec, hx]

omit [Arch] in
/-- addition, subtraction and multiplication of types that are not only zero fit iff operands and result do -/
theorem fits_iff {R : ITy} {o : Op2} {T U : Opd} {t u : Int} (ho : o ≠ .shl ∧ o ≠ .shr) (hz : ¬ (o = .ar .mul ∧ ZeroProduct R T U)) :
    TyFits R o T U t u ↔ (R.In t ∧ R.In u ∧ ∃ v, imath o t u = some v ∧ R.In v) :=
  ⟨fun h => by
    rcases h with h | h
    · exact ⟨h.1, h.2.1, h.2.2.1⟩
    · exact absurd h hz,
  fun ⟨h1, h2, h3⟩ => Or.inl ⟨h1, h2, h3, fun h => absurd h ho.1, fun h => absurd h ho.2⟩⟩

end
end Verif.Run
