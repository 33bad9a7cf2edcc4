import Verif.Proofs.Fits

/-!
Helper lemmas for C73: if an operation fits for all values of the operand types, the compile time analysis finds that no exception
is possible.
-/

namespace Verif
open Spec Lang Props

section
variable [Arch]

private theorem corners_ok {R : ITy} {op : CR → CR → Out CR} {t u : Itv CR} {a b c d : Int}
    (e1 : op t.l u.l = .ret (.ok a)) (e2 : op t.l u.u = .ret (.ok b)) (e3 : op t.u u.l = .ret (.ok c))
    (e4 : op t.u u.u = .ret (.ok d)) (p1 : R.In a) (p2 : R.In b) (p3 : R.In c) (p4 : R.In d) :
    ∃ x y, corners R op t u = .ret ⟨.ok x, .ok y⟩ ∧ R.In x ∧ R.In y := by
  have hp : ∀ z ∈ [CR.ok a, .ok b, .ok c, .ok d], Proper R z := by
    intro z hz; simp at hz; rcases hz with rfl | rfl | rfl | rfl <;> assumption
  obtain ⟨m, M, e, hm, hM, _⟩ := minmax_cr (CR.ok a) [.ok b, .ok c, .ok d] hp
  have key : ∀ z ∈ [CR.ok a, .ok b, .ok c, .ok d], ∃ x, z = .ok x ∧ R.In x := by
    intro z hz; simp at hz
    rcases hz with rfl | rfl | rfl | rfl
    exacts [⟨_, rfl, p1⟩, ⟨_, rfl, p2⟩, ⟨_, rfl, p3⟩, ⟨_, rfl, p4⟩]
  obtain ⟨x, rfl, hx⟩ := key m hm
  obtain ⟨y, rfl, hy⟩ := key M hM
  exact ⟨x, y, by simp only [corners, minmax4, e1, e2, e3, e4, e, Out.ret_bind], hx, hy⟩

private theorem lo_has {T : Opd} (hT : T.Wf) : T.Has T.lo := ⟨le_refl _, hT.2.2.2.1⟩
private theorem hi_has {T : Opd} (hT : T.Wf) : T.Has T.hi := ⟨hT.2.2.2.1, le_refl _⟩

private theorem exactOr_in {R : ITy} {v : Int} (h : R.In v) : exactOr R.min R.max v = .ok v := exactOr_of_in h.1 h.2

private theorem static_of {op : ArithOp} {R : ITy} {T U : Opd} {x y : Int} (h : resItv op.itv R T U = .ret ⟨.ok x, .ok y⟩)
    (hx : R.In x) (hy : R.In y) : staticExc op R T U = false := by
  unfold staticExc; rw [h]; exact excPossible_values hx hy

theorem add_res {R : ITy} {T U : Opd} (hT : T.Wf) (hU : U.Wf)
    (h : ∀ t u, T.Has t → U.Has u → R.In t ∧ R.In u ∧ R.In (t + u)) :
    resItv itvAdd R T U = .ret ⟨.ok (T.lo + U.lo), .ok (T.hi + U.hi)⟩ := by
  obtain ⟨a1, a2, a3⟩ := h _ _ (lo_has hT) (lo_has hU)
  obtain ⟨b1, b2, b3⟩ := h _ _ (hi_has hT) (hi_has hU)
  refine resItv_of hT hU (f := itvAdd) ?_
  rw [castTo_of_in a1, castTo_of_in a2, castTo_of_in b1, castTo_of_in b2]
  simp only [itvAdd, crAdd_ok a1 a2, crAdd_ok b1 b2, exactOr_in a3, exactOr_in b3, Out.ret_bind]

theorem add_accept {R : ITy} {T U : Opd} (hT : T.Wf) (hU : U.Wf)
    (h : ∀ t u, T.Has t → U.Has u → R.In t ∧ R.In u ∧ R.In (t + u)) : staticExc opAdd R T U = false :=
  static_of (op := opAdd) (add_res hT hU h) (h _ _ (lo_has hT) (lo_has hU)).2.2 (h _ _ (hi_has hT) (hi_has hU)).2.2

theorem sub_accept {R : ITy} {T U : Opd} (hT : T.Wf) (hU : U.Wf)
    (h : ∀ t u, T.Has t → U.Has u → R.In t ∧ R.In u ∧ R.In (t - u)) : staticExc opSub R T U = false := by
  obtain ⟨a1, a2, a3⟩ := h _ _ (lo_has hT) (hi_has hU)
  obtain ⟨b1, b2, b3⟩ := h _ _ (hi_has hT) (lo_has hU)
  refine static_of (op := opSub) (resItv_of hT hU (f := itvSub) (ri := ⟨.ok (T.lo - U.hi), .ok (T.hi - U.lo)⟩) ?_) a3 b3
  rw [castTo_of_in a1, castTo_of_in a2, castTo_of_in b1, castTo_of_in b2]
  simp only [itvSub, crSub_ok a1 a2, crSub_ok b1 b2, exactOr_in a3, exactOr_in b3, Out.ret_bind]

/-- the four corners of an operation that is exact there -/
private theorem four {R : ITy} {op : CR → CR → Out CR} {f : Int → Int → Int} {T U : Opd} (hT : T.Wf) (hU : U.Wf)
    (h : ∀ t u, T.Has t → U.Has u → R.In t ∧ R.In u ∧ R.In (f t u))
    (ho : ∀ t u, T.Has t → U.Has u → op (.ok t) (.ok u) = .ret (.ok (f t u))) :
    ∃ x y, corners R op ⟨castTo R T.lo, castTo R T.hi⟩ ⟨castTo R U.lo, castTo R U.hi⟩ = .ret ⟨.ok x, .ok y⟩ ∧ R.In x ∧ R.In y := by
  obtain ⟨a1, a2, a3⟩ := h _ _ (lo_has hT) (lo_has hU)
  obtain ⟨b1, b2, b3⟩ := h _ _ (hi_has hT) (hi_has hU)
  rw [castTo_of_in a1, castTo_of_in a2, castTo_of_in b1, castTo_of_in b2]
  exact corners_ok (ho _ _ (lo_has hT) (lo_has hU)) (ho _ _ (lo_has hT) (hi_has hU)) (ho _ _ (hi_has hT) (lo_has hU))
    (ho _ _ (hi_has hT) (hi_has hU)) a3 (h _ _ (lo_has hT) (hi_has hU)).2.2 (h _ _ (hi_has hT) (lo_has hU)).2.2 b3

theorem mul_accept {R : ITy} (hR : R.Ok) {T U : Opd} (hT : T.Wf) (hU : U.Wf)
    (h : ∀ t u, T.Has t → U.Has u → R.In t ∧ R.In u ∧ R.In (t * u)) : staticExc opMul R T U = false := by
  obtain ⟨x, y, e, hx, hy⟩ := four (R := R) (op := crMul R) (f := (· * ·)) hT hU h fun t u ht hu => by
    obtain ⟨a, b, c⟩ := h t u ht hu
    rw [crMul_ok hR a b, exactOr_in c]
  exact static_of (op := opMul) (resItv_of hT hU e) hx hy

theorem shl_accept {R : ITy} (hR : R.Ok) {T U : Opd} (hT : T.Wf) (hU : U.Wf)
    (h : ∀ t u, T.Has t → U.Has u → R.In t ∧ R.In u ∧ 0 ≤ u ∧ R.In (t * 2 ^ u.toNat) ∧ (u = 0 ∨ 0 ≤ t)) :
    staticExc opShl R T U = false := by
  obtain ⟨x, y, e, hx, hy⟩ := four (R := R) (op := crShl R) (f := fun t u => t * 2 ^ u.toNat) hT hU
    (fun t u ht hu => ⟨(h t u ht hu).1, (h t u ht hu).2.1, (h t u ht hu).2.2.2.1⟩) fun t u ht hu => by
    obtain ⟨a, b, c, d, g⟩ := h t u ht hu
    have e := crShl_ok hR a b 0
    have hs : scale t u = t * 2 ^ u.toNat := by unfold scale; rw [if_pos c]
    have d2 := d.2
    rw [hs, if_neg (by omega), if_neg (by omega)] at e
    exact e
  exact static_of (op := opShl) (resItv_of hT hU e) hx hy

theorem then_of {R : ITy} {U : Opd} (h1 : R.In U.lo) (h2 : R.In U.hi) (h : U.hi < 0 ∨ 0 < U.lo) :
    thenCond R ⟨castTo R U.lo, castTo R U.hi⟩ = true ∧
    ((⟨castTo R U.lo, castTo R U.hi⟩ : Itv CR).includesPt (crCmp R) (.ok 0)).toBool = false := by
  rw [castTo_of_in h1, castTo_of_in h2]
  constructor
  · change ((crLt R (.ok U.hi) (.ok 0)).or (crLt R (.ok 0) (.ok U.lo))).toBool = true
    rw [crLt_ok h2 R.in_zero, crLt_ok R.in_zero h1]
    rcases h with h | h
    · rw [decide_eq_true h]; cases T3.ofBool (decide (0 < U.lo)) <;> rfl
    · rw [decide_eq_true h]; cases T3.ofBool (decide (U.hi < 0)) <;> rfl
  · change (((crLt R (.ok 0) (.ok U.lo)).not).and ((crLt R (.ok U.hi) (.ok 0)).not)).toBool = false
    rw [crLt_ok h2 R.in_zero, crLt_ok R.in_zero h1]
    rcases h with h | h
    · rw [decide_eq_true h]; cases T3.ofBool (decide (0 < U.lo)) <;> rfl
    · rw [decide_eq_true h]; cases T3.ofBool (decide (U.hi < 0)) <;> rfl

private theorem divMod_accept {R : ITy} {g : ITy → CR → CR → Out CR} {f : Int → Int → Int} {T U : Opd} (hT : T.Wf) (hU : U.Wf)
    (h : ∀ t u, T.Has t → U.Has u → u ≠ 0 ∧ R.In t ∧ R.In u ∧ R.In (f t u))
    (ho : ∀ t u, T.Has t → U.Has u → g R (.ok t) (.ok u) = .ret (.ok (f t u))) :
    ∃ ri, divModItv (fun R t u => do
        assertThat (u.excludesPt (crCmp R) (.ok 0)).toBool
        corners R (g R) t u) g R ⟨castTo R T.lo, castTo R T.hi⟩ ⟨castTo R U.lo, castTo R U.hi⟩ = .ret ri ∧
      divExcPossible R ⟨castTo R U.lo, castTo R U.hi⟩ ri = false := by
  have h0 : U.hi < 0 ∨ 0 < U.lo := by
    by_contra hn
    exact (h T.lo 0 (lo_has hT) ⟨by omega, by omega⟩).1 rfl
  obtain ⟨_, _, a2, _⟩ := h _ _ (lo_has hT) (lo_has hU)
  obtain ⟨_, _, b2, _⟩ := h _ _ (hi_has hT) (hi_has hU)
  obtain ⟨q1, q2⟩ := then_of a2 b2 h0
  obtain ⟨x, y, e, hx, hy⟩ := four (R := R) (op := g R) hT hU (fun t u ht hu => (h t u ht hu).2) ho
  refine ⟨⟨.ok x, .ok y⟩, ?_, ?_⟩
  · unfold divModItv
    change (if thenCond R _ = true then _ else _) = _
    rw [if_pos q1]
    change (do assertThat _; corners R (g R) _ _) = _
    rw [excludes_of_then q1, e]; rfl
  · unfold divExcPossible
    rw [q2]; rfl

theorem div_accept {R : ITy} {T U : Opd} (hT : T.Wf) (hU : U.Wf)
    (h : ∀ t u, T.Has t → U.Has u → u ≠ 0 ∧ R.In t ∧ R.In u ∧ R.In (t.tdiv u)) :
    ∃ ri, resItv divItv R T U = .ret ri ∧ divExcPossible R ⟨castTo R U.lo, castTo R U.hi⟩ ri = false := by
  obtain ⟨ri, e, he⟩ := divMod_accept (g := crDiv) (f := Int.tdiv) hT hU h fun t u ht hu => by
    obtain ⟨a, b, c, d⟩ := h t u ht hu
    have := d.2
    rw [crDiv_ok b c a, if_neg (by omega)]
  exact ⟨ri, resItv_of hT hU e, he⟩

theorem mod_accept {R : ITy} {T U : Opd} (hT : T.Wf) (hU : U.Wf)
    (h : ∀ t u, T.Has t → U.Has u → u ≠ 0 ∧ R.In t ∧ R.In u ∧ R.In (t.tmod u)) :
    ∃ ri, resItv modItv R T U = .ret ri ∧ divExcPossible R ⟨castTo R U.lo, castTo R U.hi⟩ ri = false := by
  obtain ⟨ri, e, he⟩ := divMod_accept (g := crMod)
    (f := fun t u => if R.signed = true ∧ t = R.min ∧ u = R.min then t else t.tmod u) hT hU
    (fun t u ht hu => by
      obtain ⟨a, b, c, d⟩ := h t u ht hu
      refine ⟨a, b, c, ?_⟩
      split_ifs <;> assumption) fun t u ht hu => by
    obtain ⟨a, b, c, d⟩ := h t u ht hu
    have key : modulus R make t u = .ret (.ok (if R.signed = true ∧ t = R.min ∧ u = R.min then t else t.tmod u)) := by
      rw [modulus_eq b c, if_neg a]
      split_ifs <;> rfl
    have key0 : t = 0 → (if R.signed = true ∧ t = R.min ∧ u = R.min then t else t.tmod u) = 0 := fun h => by
      subst h; rw [Int.zero_tmod]; split_ifs <;> rfl
    change crMod R (.ok t) (.ok u) = .ret (.ok (if R.signed = true ∧ t = R.min ∧ u = R.min then t else t.tmod u))
    generalize (if R.signed = true ∧ t = R.min ∧ u = R.min then t else t.tmod u) = w at key key0 ⊢
    unfold crMod
    rw [prodFlag_ok b, prodFlag_ok c]
    split_ifs
    all_goals first | exact key | omega | (rw [key0 (by omega)]; rfl)
  exact ⟨ri, resItv_of hT hU e, he⟩

theorem shr_accept {R : ITy} (hR : R.Ok) {T U : Opd} (hT : T.Wf) (hU : U.Wf)
    (h : ∀ t u, T.Has t → U.Has u → R.In t ∧ R.In u ∧ 0 ≤ u ∧ 0 ≤ t ∧ u ≤ R.digits ∧ ¬ FullWidth R u) :
    ∃ ri, resItv itvShr R T U = .ret ri ∧
      shrExcPossible R ⟨castTo R T.lo, castTo R T.hi⟩ ⟨castTo R U.lo, castTo R U.hi⟩ ri = false := by
  have val : ∀ t u, T.Has t → U.Has u → scale t (-u) = t / 2 ^ u.toNat := fun t u ht hu => by
    obtain ⟨a, b, c, d, g, k⟩ := h t u ht hu
    unfold scale
    by_cases h0 : u = 0
    · subst h0; simp
    · rw [if_neg (by omega), Int.neg_neg, Int.tdiv_eq_ediv_of_nonneg d]
  have inn : ∀ t u, T.Has t → U.Has u → R.In (t / 2 ^ u.toNat) := fun t u ht hu => by
    obtain ⟨a, b, c, d, g, k⟩ := h t u ht hu
    have g1 : t / 2 ^ u.toNat ≤ t := Int.ediv_le_self _ d
    have g2 : 0 ≤ t / 2 ^ u.toNat := Int.ediv_nonneg d (Int.le_of_lt (two_pow_pos _))
    have a2 := a.2; have hz := R.min_nonpos
    exact ⟨by omega, by omega⟩
  obtain ⟨x, y, e, hx, hy⟩ := four (R := R) (op := crShr R) (f := fun t u => t / 2 ^ u.toNat) hT hU
    (fun t u ht hu => ⟨(h t u ht hu).1, (h t u ht hu).2.1, inn t u ht hu⟩) fun t u ht hu => by
    obtain ⟨a, b, c, d, g, k⟩ := h t u ht hu
    have e := crShr_ok hR a b (fun q => k ⟨q.1, q.2.1, q.2.2.1⟩) 0
    have d2 := (inn t u ht hu).2
    rw [val t u ht hu, if_neg (by omega), if_neg (by omega)] at e
    exact e
  refine ⟨⟨.ok x, .ok y⟩, resItv_of hT hU e, ?_⟩
  obtain ⟨a, b, c, d, _⟩ := h _ _ (lo_has hT) (lo_has hU)
  obtain ⟨a', b', c', d', g, _⟩ := h _ _ (hi_has hT) (hi_has hU)
  have hd : R.In (R.digits : Int) := in_digits R
  unfold shrExcPossible
  rw [castTo_of_in a, castTo_of_in b, castTo_of_in a', castTo_of_in b', conv_of_in hd]
  change (((((crLt R (.ok (R.digits : Int)) (.ok U.hi)).or (crLt R (.ok T.lo) (.ok 0))).or (crLt R (.ok U.lo) (.ok 0))).or .ff).or .ff).toBool = false
  rw [crLt_ok hd b', crLt_ok a R.in_zero, crLt_ok b R.in_zero, decide_eq_false (by omega), decide_eq_false (by omega),
    decide_eq_false (by omega)]
  rfl

/-! ### what is computed when no exception is possible always compiles -/

private theorem cWrap_ill (T : ITy) (v : Int) : cWrap T v ≠ .fault .illFormed := by
  unfold cWrap; split_ifs <;> exact nofun

private theorem bind_ill {α β : Type} {x : Out α} {f : α → β} (h : x ≠ .fault .illFormed) :
    (do let v ← x; Out.ret (f v)) ≠ .fault .illFormed := by
  cases x with
  | ret v => exact nofun
  | thrown e => exact nofun
  | fault k => intro g; apply h; injection g with g; rw [g]

private theorem cDiv_ill (R S : ITy) (t u : Int) : cDiv R S t u ≠ .fault .illFormed := by
  unfold cDiv; dsimp only; split_ifs
  · exact nofun
  · exact cWrap_ill _ _

private theorem cMod_ill (R S : ITy) (t u : Int) : cMod R S t u ≠ .fault .illFormed := by
  unfold cMod; dsimp only; split_ifs <;> exact nofun

private theorem cShl_ill (R S : ITy) (t u : Int) : cShl R S t u ≠ .fault .illFormed := by
  unfold cShl; dsimp only; split_ifs <;> exact nofun

private theorem cShr_ill (R S : ITy) (t u : Int) : cShr R S t u ≠ .fault .illFormed := by
  unfold cShr; dsimp only; split_ifs <;> exact nofun

/-- the same, which always compiles, is computed for all exception policies -/
def Settled (T U : Opd) (f : EP → Int → Int → Out Int) : Prop :=
  ∃ g : Int → Int → Out Int, (∀ t u, T.Has t → U.Has u → g t u ≠ .fault .illFormed) ∧ ∀ p t u, f p t u = g t u

private theorem runOp_settled {op : ArithOp} {R : ITy} {T U : Opd} {ri : Itv CR} (e : resItv op.itv R T U = .ret ri)
    (h : staticExc op R T U = false) (hp : ∀ a b, op.prim R R a b ≠ .fault .illFormed) :
    Settled T U fun p => runOp op p R T U :=
  ⟨runPlain op R, fun _ _ _ _ => bind_ill (hp _ _), fun p t u => by change runOp op p R T U t u = _; rw [runOp_cases e, if_neg (by simp [h])]⟩

private theorem runDivMod_settled {f : ITy → Itv CR → Itv CR → Out (Itv CR)} {prim : ITy → ITy → Int → Int → Out Int}
    {chk : ITy → Handler → Int → Int → Out CR} {g : ITy → CR → CR → Out CR} {es : List Err}
    {R : ITy} {T U : Opd} (hU : U.Wf) {ri : Itv CR} (e : resItv f R T U = .ret ri)
    (h : divExcPossible R ⟨castTo R U.lo, castTo R U.hi⟩ ri = false) (hp : ∀ a b, prim R R a b ≠ .fault .illFormed) :
    Settled T U fun p => runDivMod f prim chk g es p R T U := by
  refine ⟨fun t u => do let v ← prim R R (conv R t) (conv R u); .ret (conv R v), fun _ _ _ _ => bind_ill (hp _ _), fun p t u => ?_⟩
  unfold runDivMod
  rw [e, castItv_eq hU]
  simp only [Out.ret_bind, h]
  rfl

/-- an operator that fits for all values of the operand types is accepted, and computed in the same way, with all exception
policies -/
theorem op_settled {pp : PP} (hpp : pp.Wf) {p : EP} {o : Op2} {T U : Opd} (hT : T.Wf) (hU : U.Wf) (hc : OpCovered pp p T U o)
    {R : ITy} (e : pp.result (opName o) T U = .ret R) (h : ∀ t u, T.Has t → U.Has u → TyFits R o T U t u) :
    Settled T U fun p => o.safeVal pp p T U := by
  have fits : o ≠ .ar .mul → ∀ t u, T.Has t → U.Has u → OpFits R o t u := fun hm t u ht hu =>
    (h t u ht hu).resolve_right fun g => hm g.1
  cases o with
  | ar a =>
    change Settled T U fun p => arith pp p a T U
    have e' : pp.result a.binOp T U = .ret R := by cases a <;> exact e
    have hR : R.Ok := by
      rcases PP.result_total hpp (op := a.binOp) (by cases a <;> decide) hT hU with ⟨R', g, hR⟩ | g
      · rw [e'] at g; cases g; exact hR
      · rw [e'] at g; cases g
    unfold arith
    rw [e']
    simp only [Out.ret_bind]
    cases a with
    | add =>
      obtain ⟨ri, er, _⟩ := resItv_add (R := R) hT hU
      refine runOp_settled (op := opAdd) er (add_accept hT hU fun t u ht hu => ?_) fun _ _ => cWrap_ill _ _
      obtain ⟨a, b, ⟨v, c, d⟩, _⟩ := fits nofun t u ht hu
      cases c; exact ⟨a, b, d⟩
    | sub =>
      obtain ⟨ri, er, _⟩ := resItv_sub (R := R) hT hU
      refine runOp_settled (op := opSub) er (sub_accept hT hU fun t u ht hu => ?_) fun _ _ => cWrap_ill _ _
      obtain ⟨a, b, ⟨v, c, d⟩, _⟩ := fits nofun t u ht hu
      cases c; exact ⟨a, b, d⟩
    | mul =>
      obtain ⟨ri, er, _⟩ := resItv_mul hR hT hU
      refine runOp_settled (op := opMul) er ?_ fun _ _ => cWrap_ill _ _
      by_cases hz : ZeroProduct R T U
      · exact mul_zero_static hR hT hU hz
      · refine mul_accept hR hT hU fun t u ht hu => ?_
        obtain ⟨a, b, ⟨v, c, d⟩, _⟩ := (h t u ht hu).resolve_right fun g => hz g.2
        cases c; exact ⟨a, b, d⟩
    | div =>
      obtain ⟨ri, er, k⟩ := div_accept (R := R) hT hU fun t u ht hu => by
        obtain ⟨a, b, ⟨v, c, d⟩, _⟩ := fits nofun t u ht hu
        simp only [imath] at c
        split at c
        · cases c
        · cases c; exact ⟨by assumption, a, b, d⟩
      exact runDivMod_settled hU er k fun _ _ => cDiv_ill _ _ _ _
    | mod =>
      obtain ⟨ri, er, k⟩ := mod_accept (R := R) hT hU fun t u ht hu => by
        obtain ⟨a, b, ⟨v, c, d⟩, _⟩ := fits nofun t u ht hu
        simp only [imath] at c
        split at c
        · cases c
        · cases c; exact ⟨by assumption, a, b, d⟩
      exact runDivMod_settled hU er k fun _ _ => cMod_ill _ _ _ _
  | bit b =>
    change Settled T U fun _ => bitwise pp b T U
    have e' : pp.result b.binOp T U = .ret R := by cases b <;> exact e
    refine ⟨_, fun t u ht hu => ?_, fun _ _ _ => rfl⟩
    obtain ⟨v, S, g, _⟩ := bit_covered hT hU e' (hc R e') ht hu
    rw [g]
    exact nofun
  | shl =>
    change Settled T U fun p => shl pp p T U
    have hR : R.Ok := by
      rcases PP.result_shift hpp (Or.inl rfl) hT hU with ⟨R', g, hR⟩ | g
      · rw [show pp.result .shl T U = .ret R from e] at g; cases g; exact hR
      · rw [show pp.result .shl T U = .ret R from e] at g; cases g
    unfold shl
    rw [show pp.result .shl T U = .ret R from e]
    simp only [Out.ret_bind]
    obtain ⟨ri, er, _⟩ := shl_res hR hT hU
    refine runOp_settled (op := opShl) er (shl_accept hR hT hU fun t u ht hu => ?_) fun _ _ => cShl_ill _ _ _ _
    obtain ⟨a, b, ⟨v, c, d⟩, g, _⟩ := fits nofun t u ht hu
    simp only [imath] at c
    split at c
    · cases c; exact ⟨a, b, by assumption, d, by have := g rfl; omega⟩
    · cases c
  | shr =>
    change Settled T U fun p => shr pp p T U
    have hR : R.Ok := by
      rcases PP.result_shift hpp (Or.inr rfl) hT hU with ⟨R', g, hR⟩ | g
      · rw [show pp.result .shr T U = .ret R from e] at g; cases g; exact hR
      · rw [show pp.result .shr T U = .ret R from e] at g; cases g
    obtain ⟨ri, er, k⟩ := shr_accept hR hT hU fun t u ht hu => by
      obtain ⟨a, b, ⟨v, c, d⟩, _, g⟩ := fits nofun t u ht hu
      simp only [imath] at c
      split at c
      · rename_i q; exact ⟨a, b, q.1, q.2, g rfl, (hc.2 R e).2 u hu⟩
      · cases c
    refine ⟨fun t u => runPlain opShr R t u, fun _ _ _ _ => bind_ill (cShr_ill _ _ _ _), fun p t u => ?_⟩
    unfold shr runShr
    rw [show pp.result .shr T U = .ret R from e]
    simp only [Out.ret_bind, er, castItv_eq hT, castItv_eq hU, k]
    rfl

end
end Verif
