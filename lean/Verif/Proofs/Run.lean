import Verif.Props.Phase

/-!
Derived rules for running programs: complete executions without counting steps, and expressions whose operators, for concrete
operand types, are checked once and for all by evaluation.
-/

namespace Verif.Run
open Spec Lang

section
variable [Arch] {N : Names} {n : Nat} {Γ : Fin n → PTy N}

omit [Arch] in
private theorem ret_bind {α β : Type} (a : α) (f : α → Out β) : (Out.ret a >>= f) = f a := rfl

/-! ### statements -/

theorem ends_skip (s : LState n) : Ends Γ .skip s (.ret ()) s := ⟨1, fun f hf => by
  obtain ⟨g, rfl⟩ : ∃ g, f = g + 1 := ⟨f - 1, by omega⟩
  rfl⟩

theorem ends_assign {s : LState n} {i : Fin n} {e : LExpr N n} {v : Int} (h : assignVal Γ s.st i e = .ret v) :
    Ends Γ (.assign i e) s (.ret ()) (s.write i v) := ⟨1, fun f hf => by
  obtain ⟨g, rfl⟩ : ∃ g, f = g + 1 := ⟨f - 1, by omega⟩
  simp only [LStmt.exec, h, storing]⟩

theorem ends_opAssign {s : LState n} {o : Op2} {i : Fin n} {e : LExpr N n} {v : Int}
    (h : opAssignVal Γ s.st o i e = .ret v) :
    Ends Γ (.opAssign o i e) s (.ret ()) (s.write i v) := ⟨1, fun f hf => by
  obtain ⟨g, rfl⟩ : ∃ g, f = g + 1 := ⟨f - 1, by omega⟩
  simp only [LStmt.exec, h, storing]⟩

theorem ends_inc {s : LState n} {i : Fin n} {v : Int}
    (h : opAssignVal Γ s.st (.ar .add) i (.const tInt 1) = .ret v) :
    Ends Γ (.inc i) s (.ret ()) (s.write i v) := ⟨1, fun f hf => by
  obtain ⟨g, rfl⟩ : ∃ g, f = g + 1 := ⟨f - 1, by omega⟩
  simp only [LStmt.exec, h, storing]⟩

theorem ends_inc_throw {s : LState n} {i : Fin n} {x : Err}
    (h : opAssignVal Γ s.st (.ar .add) i (.const tInt 1) = .thrown x) :
    Ends Γ (.inc i) s (.thrown x) s := ⟨1, fun f hf => by
  obtain ⟨g, rfl⟩ : ∃ g, f = g + 1 := ⟨f - 1, by omega⟩
  simp only [LStmt.exec, h, storing]⟩

theorem ends_dec {s : LState n} {i : Fin n} {v : Int}
    (h : opAssignVal Γ s.st (.ar .sub) i (.const tInt 1) = .ret v) :
    Ends Γ (.dec i) s (.ret ()) (s.write i v) := ⟨1, fun f hf => by
  obtain ⟨g, rfl⟩ : ∃ g, f = g + 1 := ⟨f - 1, by omega⟩
  simp only [LStmt.exec, h, storing]⟩

theorem ends_dec_throw {s : LState n} {i : Fin n} {x : Err}
    (h : opAssignVal Γ s.st (.ar .sub) i (.const tInt 1) = .thrown x) :
    Ends Γ (.dec i) s (.thrown x) s := ⟨1, fun f hf => by
  obtain ⟨g, rfl⟩ : ∃ g, f = g + 1 := ⟨f - 1, by omega⟩
  simp only [LStmt.exec, h, storing]⟩

theorem ends_seq {a b : LStmt N n} {s s1 s2 : LState n} {r : Out Unit} (h1 : Ends Γ a s (.ret ()) s1) (h2 : Ends Γ b s1 r s2) :
    Ends Γ (.seq a b) s r s2 := by
  obtain ⟨k1, h1⟩ := h1
  obtain ⟨k2, h2⟩ := h2
  refine ⟨k1 + k2 + 1, fun f hf => ?_⟩
  obtain ⟨g, rfl⟩ : ∃ g, f = g + 1 := ⟨f - 1, by omega⟩
  simp only [LStmt.exec, h1 g (by omega), h2 g (by omega)]

theorem ends_seq_throw {a b : LStmt N n} {s s1 : LState n} {x : Err} (h1 : Ends Γ a s (.thrown x) s1) :
    Ends Γ (.seq a b) s (.thrown x) s1 := by
  obtain ⟨k1, h1⟩ := h1
  refine ⟨k1 + 1, fun f hf => ?_⟩
  obtain ⟨g, rfl⟩ : ∃ g, f = g + 1 := ⟨f - 1, by omega⟩
  simp only [LStmt.exec, h1 g (by omega)]

theorem ends_ite {c : LCond N n} {a b : LStmt N n} {s s' : LState n} {r : Out Unit} {v : Bool} (hc : c.eval Γ s.st = .ret v)
    (h : Ends Γ (if v then a else b) s r s') : Ends Γ (.ite c a b) s r s' := by
  obtain ⟨k, h⟩ := h
  refine ⟨k + 1, fun f hf => ?_⟩
  obtain ⟨g, rfl⟩ : ∃ g, f = g + 1 := ⟨f - 1, by omega⟩
  cases v
  · simp only [LStmt.exec, hc]; exact h g (by omega)
  · simp only [LStmt.exec, hc]; exact h g (by omega)

theorem ends_while_false {c : LCond N n} {a : LStmt N n} {s : LState n} (hc : c.eval Γ s.st = .ret false) :
    Ends Γ (.while c a) s (.ret ()) s := by
  refine ⟨1, fun f hf => ?_⟩
  obtain ⟨g, rfl⟩ : ∃ g, f = g + 1 := ⟨f - 1, by omega⟩
  simp only [LStmt.exec, hc]

theorem ends_while_true {c : LCond N n} {a : LStmt N n} {s s1 s2 : LState n} {r : Out Unit} (hc : c.eval Γ s.st = .ret true)
    (h1 : Ends Γ a s (.ret ()) s1) (h2 : Ends Γ (.while c a) s1 r s2) : Ends Γ (.while c a) s r s2 := by
  obtain ⟨k1, h1⟩ := h1
  obtain ⟨k2, h2⟩ := h2
  refine ⟨k1 + k2 + 1, fun f hf => ?_⟩
  obtain ⟨g, rfl⟩ : ∃ g, f = g + 1 := ⟨f - 1, by omega⟩
  simp only [LStmt.exec, hc, h1 g (by omega)]
  exact h2 g (by omega)

theorem ends_while_throw {c : LCond N n} {a : LStmt N n} {s s1 : LState n} {x : Err} (hc : c.eval Γ s.st = .ret true)
    (h1 : Ends Γ a s (.thrown x) s1) : Ends Γ (.while c a) s (.thrown x) s1 := by
  obtain ⟨k1, h1⟩ := h1
  refine ⟨k1 + 1, fun f hf => ?_⟩
  obtain ⟨g, rfl⟩ : ∃ g, f = g + 1 := ⟨f - 1, by omega⟩
  simp only [LStmt.exec, hc, h1 g (by omega)]

/-! ### operators on concrete types -/

omit [Arch] in
theorem phase2_of {T U : Opd} {α : Type} {val : Int → Int → Out α} (h : Phase2 T U val) {x y : Int} (hx : T.Has x)
    (hy : U.Has y) (g : val x y ≠ .fault .illFormed) {t u : Int} (ht : T.Has t) (hu : U.Has u) :
    val t u ≠ .fault .illFormed := by
  rcases h with h | h
  · exact absurd (h x y hx hy) g
  · exact h _ _ ht hu

omit [Arch] in
theorem phase1_of {T : Opd} {α : Type} {val : Int → Out α} (h : Phase1 T val) {x : Int} (hx : T.Has x)
    (g : val x ≠ .fault .illFormed) {t : Int} (ht : T.Has t) : val t ≠ .fault .illFormed := by
  rcases h with h | h
  · exact absurd (h x hx) g
  · exact h _ ht

/-- covered operand types, for the result type `R`, in a form that can be evaluated -/
def Cov (p : EP) (R : ITy) (T U : Opd) : Op2 → Prop
  | .ar .div => FitsIn R T ∧ FitsIn R U ∧ Wide R T U
  | .ar .mod => False
  | .ar _ => True
  | .bit _ => R.Ok ∧ 0 ≤ T.lo ∧ 0 ≤ U.lo ∧ T.hi ≤ R.max ∧ U.hi ≤ R.max
  | .shl => ((p.idb = .throw ∨ p.ae = .trap) ∨ (0 ≤ T.lo ∧ 0 ≤ U.lo ∧ T.hi * 2 ^ U.hi.toNat ≤ R.max)) ∧ ShlCovered R T U
  | .shr => ((p.idb = .throw ∨ p.ae = .trap) ∨ (0 ≤ T.lo ∧ 0 ≤ U.lo ∧ U.hi ≤ R.digits)) ∧ ShrCovered R T U ∧ U.hi < R.bits

instance (p : EP) (R : ITy) (T U : Opd) (o : Op2) : Decidable (Cov p R T U o) := by
  unfold Cov Wide
  split <;> infer_instance

/-- everything about `a op b` that does not depend on the values: it is an operator of the library with policies `q`, `e`,
computes in the type `R`, has the type `S`, is covered and compiles (it does for the operands `x`, `y`) -/
structure Chk (o : Op2) (T U : PTy N) (q : N.P) (e : N.E) (R : ITy) (S : PTy N) (x y : Int) : Prop where
  safe : T.isSafe = true ∨ U.isSafe = true
  pr : common T.pr U.pr = .ret q
  ex : common T.ex U.ex = .ret e
  res : (N.prom q).result (opName o) T.opd U.opd = .ret R
  ty : pBinTy o T U = .ret S
  cov : Cov (N.act e) R T.opd U.opd o
  hx : T.opd.Has x
  hy : U.opd.Has y
  acc : pBinVal o T U x y ≠ .fault .illFormed

instance (o : Op2) (T U : PTy N) (q : N.P) (e : N.E) (R : ITy) (S : PTy N) (x y : Int) : Decidable (Chk o T U q e R S x y) :=
  decidable_of_iff ((T.isSafe = true ∨ U.isSafe = true) ∧ common T.pr U.pr = .ret q ∧ common T.ex U.ex = .ret e ∧
    (N.prom q).result (opName o) T.opd U.opd = .ret R ∧ pBinTy o T U = .ret S ∧ Cov (N.act e) R T.opd U.opd o ∧
    T.opd.Has x ∧ U.opd.Has y ∧ pBinVal o T U x y ≠ .fault .illFormed)
    ⟨fun ⟨a, b, c, d, e, f, g, h, i⟩ => ⟨a, b, c, d, e, f, g, h, i⟩,
      fun ⟨a, b, c, d, e, f, g, h, i⟩ => ⟨a, b, c, d, e, f, g, h, i⟩⟩

theorem Chk.covered {o : Op2} {T U : PTy N} {q : N.P} {e : N.E} {R : ITy} {S : PTy N} {x y : Int}
    (h : Chk o T U q e R S x y) : BinCovered o T U := by
  refine ⟨h.safe, fun q' e' hq he => ?_⟩
  rw [h.pr] at hq; cases hq
  rw [h.ex] at he; cases he
  have hc := h.cov
  have hr := h.res
  unfold Cov at hc
  rcases o with a | b | _ | _
  · cases a
    · trivial
    · trivial
    · trivial
    · intro R' hR'
      have := Out.ret.inj (hr.symm.trans hR'); subst this
      exact ⟨hc.1, hc.2.1, Or.inl hc.2.2⟩
    · exact hc.elim
  · intro R' hR'
    have := Out.ret.inj (hr.symm.trans hR'); subst this
    exact ⟨hc.1, Or.inl ⟨hc.2.1, hc.2.2.1, hc.2.2.2.1, hc.2.2.2.2⟩⟩
  · refine ⟨hc.1.imp id ?_, fun R' hR' => ?_⟩
    · intro ⟨h1, h2, h3⟩ t u R' ht hu hR'
      have := Out.ret.inj (hr.symm.trans hR'); subst this
      have := ht.1; have := ht.2; have := hu.1; have := hu.2; have := hc.2.1
      by_cases u0 : u = 0
      · exact Or.inl u0
      have h4 := mul_pow_mono (a := t) (b := u) (t := T.opd.hi) (u := U.opd.hi) (by omega) (by omega) (by omega)
      refine Or.inr ⟨by omega, by omega, by omega, fun _ => ?_⟩
      by_contra hd
      have h6 := two_pow_le (show R.digits ≤ U.opd.hi.toNat by omega)
      have h7 := mul_pow_mono (a := 1) (b := U.opd.hi) (t := T.opd.hi) (u := U.opd.hi) (by omega) (by omega) (Int.le_refl _)
      unfold ITy.max at h3; omega
    · have := Out.ret.inj (hr.symm.trans hR'); subst this
      exact hc.2
  · refine ⟨hc.1.imp id ?_, fun R' hR' => ?_⟩
    · intro ⟨h1, h2, h3⟩ t u R' ht hu hR'
      have := Out.ret.inj (hr.symm.trans hR'); subst this
      have := ht.1; have := hu.1; have := hu.2
      exact ⟨by omega, by omega, by omega⟩
    have := Out.ret.inj (hr.symm.trans hR'); subst this
    refine ⟨hc.2.1, fun u hu hf => ?_⟩
    have := hu.2; have := hf.2.2; have := hc.2.2
    omega

/-- what a correct operator returns -/
theorem Chk.val {o : Op2} {T U : PTy N} {q : N.P} {e : N.E} {R : ITy} {S : PTy N} {x y : Int}
    (h : Chk o T U q e R S x y) (hN : Careful N) (hT : PTy.Wf T) (hU : PTy.Wf U) {t u v : Int} (ht : T.opd.Has t)
    (hu : U.opd.Has u) (hv : imath o t u = some v) (it : R.In t) (iu : R.In u) (iv : R.In v)
    (h1 : o = .shl → u = 0 ∨ 0 < t ∨ (t = 0 ∧ u < R.digits)) (h2 : o = .shr → u < R.bits) :
    pBinVal o T U t u = .ret v ∧ PTy.Wf S ∧ S.opd.Has v := by
  have hf : BinFits o T U t u := by
    intro q' R' hq hR'
    rw [h.pr] at hq; cases hq
    have := Out.ret.inj (h.res.symm.trans hR'); subst this
    refine Or.inl ⟨it, iu, ⟨v, hv, iv⟩, h1, fun ho => ?_⟩
    have := h2 ho
    rcases hs : R.signed with _ | _
    · have := ITy.digits_unsigned hs; omega
    · have := ITy.digits_signed hs; omega
  rcases pbin_good hN hT hU h.covered ht hu with ⟨S', v', e1, w, e2, hS, e3⟩ | ⟨x, hx⟩ | hx
  · rw [h.ty] at e1; cases e1
    rw [hv] at e3; cases e3
    exact ⟨e2, w, hS⟩
  · exact absurd hx (pbin_quiet hN hT hU h.covered ht hu hf x)
  · exact absurd hx (phase2_of (pbin_phase hN hT hU h.covered) h.hx h.hy h.acc ht hu)

/-- everything about a conversion that does not depend on the value -/
structure ChkConv (S T : PTy N) (x : Int) : Prop where
  safe : S.isSafe = true ∨ T.isSafe = true
  hx : T.opd.Has x
  acc : convTo S T x ≠ .fault .illFormed

instance (S T : PTy N) (x : Int) : Decidable (ChkConv S T x) :=
  decidable_of_iff ((S.isSafe = true ∨ T.isSafe = true) ∧ T.opd.Has x ∧ convTo S T x ≠ .fault .illFormed)
    ⟨fun ⟨a, b, c⟩ => ⟨a, b, c⟩, fun ⟨a, b, c⟩ => ⟨a, b, c⟩⟩

theorem ChkConv.val {S T : PTy N} {x : Int} (h : ChkConv S T x) (hN : Careful N) (hS : PTy.Wf S) (hl : NotLit S.opd)
    (hT : PTy.Wf T) {t : Int} (ht : T.opd.Has t) (hs : S.opd.Has t) : convTo S T t = .ret t := by
  have hc : ConvCovered S T := ⟨hS, hl, h.safe.elim Or.inl (fun h => Or.inr (Or.inl h))⟩
  rcases conv_good hN hT hc ht with h' | ⟨x, hx⟩ | hx
  · exact h'.1
  · exact absurd hx (conv_quiet hN hT hc ht hs x)
  · exact absurd hx (phase1_of (conv_phase hT hc) h.hx h.acc ht)

/-- everything about a comparison that does not depend on the values -/
structure ChkCmp (o : Rel) (T U : PTy N) (q : N.P) (e : N.E) (R R' : ITy) (x y : Int) : Prop where
  safe : T.isSafe = true ∨ U.isSafe = true
  pr : common T.pr U.pr = .ret q
  ex : common T.ex U.ex = .ret e
  res : (N.prom q).result .cmp T.opd U.opd = .ret R
  res' : (N.prom q).result .cmp U.opd T.opd = .ret R'
  hx : T.opd.Has x
  hy : U.opd.Has y
  acc : pCompare o T U x y ≠ .fault .illFormed

instance (o : Rel) (T U : PTy N) (q : N.P) (e : N.E) (R R' : ITy) (x y : Int) : Decidable (ChkCmp o T U q e R R' x y) :=
  decidable_of_iff ((T.isSafe = true ∨ U.isSafe = true) ∧ common T.pr U.pr = .ret q ∧ common T.ex U.ex = .ret e ∧
    (N.prom q).result .cmp T.opd U.opd = .ret R ∧ (N.prom q).result .cmp U.opd T.opd = .ret R' ∧
    T.opd.Has x ∧ U.opd.Has y ∧ pCompare o T U x y ≠ .fault .illFormed)
    ⟨fun ⟨a, b, c, d, e, f, g, h⟩ => ⟨a, b, c, d, e, f, g, h⟩,
      fun ⟨a, b, c, d, e, f, g, h⟩ => ⟨a, b, c, d, e, f, g, h⟩⟩

theorem ChkCmp.val {o : Rel} {T U : PTy N} {q : N.P} {e : N.E} {R R' : ITy} {x y : Int} (h : ChkCmp o T U q e R R' x y)
    (hN : Careful N) (hT : PTy.Wf T) (hU : PTy.Wf U) {t u : Int} (ht : T.opd.Has t) (hu : U.opd.Has u)
    (it : R.In t) (iu : R.In u) (it' : R'.In t) (iu' : R'.In u) : pCompare o T U t u = .ret (rel o t u) := by
  rcases compare_good hN (o := o) hT hU (Or.inl h.safe) ht hu with h' | ⟨x, hx⟩ | hx
  · exact h'
  · have hq : Quiet (compare (N.prom q) (N.act e) o T.opd U.opd t u) := by
      refine cmp_quiet (hN.2 q) (hN.1 e) o hT.1 hU.1 ht hu (fun R1 h1 => ?_)
      have h1 : (N.prom q).result .cmp T.opd U.opd = .ret R1 ∨ (N.prom q).result .cmp U.opd T.opd = .ret R1 := by
        cases o <;> first | exact Or.inl h1 | exact Or.inr h1
      rcases h1 with h1 | h1
      · have := Out.ret.inj (h.res.symm.trans h1); subst this; exact Or.inl ⟨it, iu⟩
      · have := Out.ret.inj (h.res'.symm.trans h1); subst this; exact Or.inl ⟨it', iu'⟩
    unfold pCompare at hx
    rw [isSafe_or h.safe, if_pos rfl, h.pr, h.ex] at hx
    exact absurd hx (hq x)
  · exact absurd hx (phase2_of (pcmp_phase hN o hT hU (Or.inl h.safe)) h.hx h.hy h.acc ht hu)

/-! ### expressions -/

/-- in the state `s` the expression `e`, of type `T`, has the value `v` -/
structure Ev (Γ : Fin n → PTy N) (s : Fin n → Int) (e : LExpr N n) (T : PTy N) (v : Int) : Prop where
  ty : e.ty Γ = .ret T
  eval : e.eval Γ s = .ret v
  wf : PTy.Wf T
  has : T.opd.Has v

theorem ev_var (hΓ : GoodVars Γ) {s : Fin n → Int} (i : Fin n) {T : PTy N} {v : Int} (hT : Γ i = T) (hv : s i = v)
    (h : T.opd.Has v) : Ev Γ s (.var i) T v := by
  subst hT hv
  exact ⟨rfl, rfl, (hΓ i).1, h⟩

theorem ev_const {s : Fin n → Int} (B : ITy) (k : Int) (h : B.Ok ∧ B.In k) :
    Ev Γ s (.const B k) (PTy.builtin B) k := ⟨rfl, rfl, pbuiltin_wf h.1, h.2⟩

theorem ev_lit {s : Fin n → Int} {L : PTy N} {k : Int} (h : PTy.Wf L) (hk : L.opd.lo = k) :
    Ev Γ s (.lit L) L k := by
  subst hk
  exact ⟨rfl, rfl, h, le_refl _, h.1.2.2.2.1⟩

theorem ev_bin (hN : Careful N) {s : Fin n → Int} {o : Op2} {a b : LExpr N n} {T U S : PTy N} {t u v : Int} (ha : Ev Γ s a T t)
    (hb : Ev Γ s b U u) {q : N.P} {e : N.E} {R : ITy} {x y : Int} (h : Chk o T U q e R S x y)
    (hv : imath o t u = some v) (it : R.In t) (iu : R.In u) (iv : R.In v)
    (h1 : o = .shl → u = 0 ∨ 0 < t ∨ (t = 0 ∧ u < R.digits) := by nofun) (h2 : o = .shr → u < R.bits := by nofun) :
    Ev Γ s (.bin o a b) S v := by
  obtain ⟨hv, w, hS⟩ := h.val hN ha.wf hb.wf ha.has hb.has hv it iu iv h1 h2
  refine ⟨?_, ?_, w, hS⟩
  · simp only [LExpr.ty, ha.ty, hb.ty, ret_bind]; exact h.ty
  · simp only [LExpr.eval, ha.ty, hb.ty, ha.eval, hb.eval, ret_bind]; exact hv

/-- an operator evaluated in any other way -/
theorem ev_bin' {s : Fin n → Int} {o : Op2} {a b : LExpr N n} {T U S : PTy N} {t u v : Int} (ha : Ev Γ s a T t)
    (hb : Ev Γ s b U u) (hS : pBinTy o T U = .ret S) (hv : pBinVal o T U t u = .ret v) (w : PTy.Wf S) (h : S.opd.Has v) :
    Ev Γ s (.bin o a b) S v := by
  refine ⟨?_, ?_, w, h⟩
  · simp only [LExpr.ty, ha.ty, hb.ty, ret_bind]; exact hS
  · simp only [LExpr.eval, ha.ty, hb.ty, ha.eval, hb.eval, ret_bind]; exact hv

theorem ev_cast (hN : Careful N) {s : Fin n → Int} {a : LExpr N n} {S T : PTy N} {t x : Int} (ha : Ev Γ s a T t)
    (hS : PTy.Wf S) (hl : NotLit S.opd) (h : ChkConv S T x) (hs : S.opd.Has t) : Ev Γ s (.cast S a) S t := by
  refine ⟨rfl, ?_, hS, hs⟩
  simp only [LExpr.eval, ha.ty, ha.eval, ret_bind]
  exact h.val hN hS hl ha.wf ha.has hs

theorem cmp_of (hN : Careful N) {s : Fin n → Int} {o : Rel} {a b : LExpr N n} {T U : PTy N} {t u : Int} (ha : Ev Γ s a T t)
    (hb : Ev Γ s b U u) {q : N.P} {e : N.E} {R R' : ITy} {x y : Int} (h : ChkCmp o T U q e R R' x y)
    (it : R.In t) (iu : R.In u) (it' : R'.In t) (iu' : R'.In u) :
    (LCond.cmp o a b).eval Γ s = .ret (rel o t u) := by
  simp only [LCond.eval, ha.ty, hb.ty, ha.eval, hb.eval, ret_bind]
  exact h.val hN ha.wf hb.wf ha.has hb.has it iu it' iu'

theorem assign_of (hN : Careful N) (hΓ : GoodVars Γ) {s : LState n} {i : Fin n} {a : LExpr N n} {S T : PTy N} {t x : Int}
    (ha : Ev Γ s.st a T t) (hi : Γ i = S) (h : ChkConv S T x) (hs : S.opd.Has t) :
    Ends Γ (.assign i a) s (.ret ()) (s.write i t) := by
  subst hi
  refine ends_assign ?_
  simp only [assignVal, ha.ty, ha.eval, ret_bind]
  exact h.val hN (hΓ i).1 (hΓ i).2 ha.wf ha.has hs

/-- the value of `x op= e` -/
theorem opAssign_val (hN : Careful N) (hΓ : GoodVars Γ) {s : Fin n → Int} {o : Op2} {i : Fin n} {a : LExpr N n} {S T U : PTy N}
    {t u v : Int} (hi : Γ i = T) (ht : T.opd.Has t) (hs : s i = t) (ha : Ev Γ s a U u) {q : N.P} {e : N.E} {R : ITy}
    {x y z : Int} (h : Chk o T U q e R S x y) (hc : ChkConv T S z) (hv : imath o t u = some v) (it : R.In t) (iu : R.In u)
    (iv : R.In v) (hS : T.opd.Has v) (h1 : o = .shl → u = 0 ∨ 0 < t ∨ (t = 0 ∧ u < R.digits) := by nofun)
    (h2 : o = .shr → u < R.bits := by nofun) : opAssignVal Γ s o i a = .ret v := by
  subst hi hs
  obtain ⟨hv, w, h3⟩ := h.val hN (hΓ i).1 ha.wf ht ha.has hv it iu iv h1 h2
  simp only [opAssignVal, ha.ty, ha.eval, ret_bind, h.ty, hv]
  exact hc.val hN (hΓ i).1 (hΓ i).2 w h3 hS

end
end Verif.Run
