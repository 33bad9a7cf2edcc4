import Verif.Props.Safe

/-!
Properties C28, C30, C41, C47, C48: comparison, trap policy, symmetry, absence of undefined behaviour, limits.
-/

namespace Verif.Props
open Spec
section
variable [Arch]

omit [Arch] in
private theorem notLit {T : Opd} (h : NotLit T) : ∀ b, T.kind ≠ .lit b := by
  intro b hb; rcases h with h | h <;> rw [h] at hb <;> cases hb

private theorem litsOk {R : ITy} {T U : Opd} (hT : NotLit T) (hU : NotLit U) : LitsOk R T U :=
  ⟨litOk_not_lit (notLit hT), litOk_not_lit (notLit hU)⟩

omit [Arch] in
private theorem ret_bind {α β : Type} (a : α) (f : α → Out β) : (Out.ret a >>= f) = f a := rfl

omit [Arch] in
private theorem cmpIn_exact (R : ITy) (t u : Int) (b : Bool) : ExactOrThrows (cmpIn R t u b) b := by
  unfold cmpIn
  split
  · exact Or.inr (Or.inl ⟨_, rfl⟩)
  · exact Or.inr (Or.inl ⟨_, rfl⟩)
  · exact Or.inl rfl

omit [Arch] in
private theorem exact_not {o : Out Bool} {b : Bool} (h : ExactOrThrows o b) :
    ExactOrThrows (do let x ← o; .ret (!x)) (!b) := by
  rcases h with h | ⟨e, h⟩ | h
  · left; rw [h]; rfl
  · right; left; exact ⟨e, by rw [h]; rfl⟩
  · right; right; rw [h]; rfl

private theorem lt_exact {p : EP} (hp : p.ae = .throw) {R : ITy} {T U : Opd} {t u : Int} (hT : T.Wf) (hU : U.Wf)
    (ht : T.Has t) (hu : U.Has u) : ExactOrThrows (runLt p R T U t u) (decide (t < u)) := by
  rw [runLt_throw hp hT hU ht hu]
  split
  · exact Or.inr (Or.inr rfl)
  · split
    · exact Or.inl rfl
    · exact cmpIn_exact _ _ _ _

private theorem eq_exact {p : EP} (hp : p.ae = .throw) {R : ITy} {T U : Opd} {t u : Int} (hT : T.Wf) (hU : U.Wf)
    (ht : T.Has t) (hu : U.Has u) : ExactOrThrows (runEq p R T U t u) (decide (t = u)) := by
  rw [runEq_throw hp hT hU ht hu]
  split
  · exact Or.inr (Or.inr rfl)
  · exact cmpIn_exact _ _ _ _

omit [Arch] in
private theorem not_lt' (t u : Int) : decide (u ≤ t) = !decide (t < u) := by
  by_cases h : t < u
  · rw [decide_eq_true h, decide_eq_false (by omega)]; rfl
  · rw [decide_eq_false h, decide_eq_true (by omega)]; rfl

omit [Arch] in
private theorem not_eq' (t u : Int) : decide (t ≠ u) = !decide (t = u) := by
  by_cases h : t = u
  · rw [decide_eq_true h, decide_eq_false (by omega)]; rfl
  · rw [decide_eq_false h, decide_eq_true (by omega)]; rfl

/-! ### C28 comparisons -/

/-- For every promotion policy, with a throwing exception policy, a comparison is the mathematical one, throws, or does
not compile. -/
theorem C28_exact (pp : PP) (hpp : pp.Wf) (p : EP) (hp : p.ae = .throw) (o : Rel) (T U : Opd) (hT : T.Wf) (hU : U.Wf)
    (t u : Int) (ht : T.Has t) (hu : U.Has u) : ExactOrThrows (compare pp p o T U t u) (rel o t u) := by
  have k1 := PP.result_total hpp (op := .cmp) (by decide) hT hU
  have k2 := PP.result_total hpp (op := .cmp) (by decide) hU hT
  unfold compare
  cases o <;> dsimp only [rel]
  · rcases k1 with ⟨R, e, _⟩ | e
    · rw [e, ret_bind]; exact lt_exact hp hT hU ht hu
    · rw [e]; exact Or.inr (Or.inr rfl)
  · rcases k2 with ⟨R, e, _⟩ | e
    · rw [e, ret_bind]; exact lt_exact hp hU hT hu ht
    · rw [e]; exact Or.inr (Or.inr rfl)
  · rcases k2 with ⟨R, e, _⟩ | e
    · rw [e, ret_bind, not_lt' u t]; exact exact_not (lt_exact hp hU hT hu ht)
    · rw [e]; exact Or.inr (Or.inr rfl)
  · rcases k1 with ⟨R, e, _⟩ | e
    · rw [e, ret_bind, not_lt' t u]; exact exact_not (lt_exact hp hT hU ht hu)
    · rw [e]; exact Or.inr (Or.inr rfl)
  · rcases k1 with ⟨R, e, _⟩ | e
    · rw [e, ret_bind]; exact eq_exact hp hT hU ht hu
    · rw [e]; exact Or.inr (Or.inr rfl)
  · rcases k1 with ⟨R, e, _⟩ | e
    · rw [e, ret_bind, not_eq' t u]; exact exact_not (eq_exact hp hT hU ht hu)
    · rw [e]; exact Or.inr (Or.inr rfl)

/-- A comparison whose operand types are both representable in the comparison type never throws, whatever the exception
policy. -/
private theorem cmp_in {p : EP} {R R' : ITy} {T U : Opd} (hT : T.Wf) (hU : U.Wf) {pp : PP}
    (e : pp.result .cmp T U = .ret R) (e' : pp.result .cmp U T = .ret R')
    (h1 : R.In T.lo ∧ R.In T.hi) (h2 : R.In U.lo ∧ R.In U.hi) (h1' : R'.In T.lo ∧ R'.In T.hi)
    (h2' : R'.In U.lo ∧ R'.In U.hi) (o : Rel) {t u : Int} (ht : T.Has t) (hu : U.Has u) (hp : p.ae = .throw ∨ p.ae = .trap) :
    compare pp p o T U t u = .ret (rel o t u) := by
  have o1 := cmpOpen_of_in h1.1 h1.2 h2.1 h2.2
  have o2 := cmpOpen_of_in h2'.1 h2'.2 h1'.1 h1'.2
  have lt1 : runLt p R T U t u = .ret (decide (t < u)) := by
    rcases hp with hp | hp
    · rw [runLt_throw hp hT hU ht hu, o1, if_neg (by simp), cmpIn_of_in (in_between h1 ht) (in_between h2 hu)]
      simp
    · rw [runLt_trap hp hT hU ht hu, o1]; rfl
  have lt2 : runLt p R' U T u t = .ret (decide (u < t)) := by
    rcases hp with hp | hp
    · rw [runLt_throw hp hU hT hu ht, o2, if_neg (by simp), cmpIn_of_in (in_between h2' hu) (in_between h1' ht)]
      simp
    · rw [runLt_trap hp hU hT hu ht, o2]; rfl
  have eq1 : runEq p R T U t u = .ret (decide (t = u)) := by
    rcases hp with hp | hp
    · rw [runEq_throw hp hT hU ht hu, o1, if_neg (by simp), cmpIn_of_in (in_between h1 ht) (in_between h2 hu)]
    · rw [runEq_trap hp hT hU ht hu, o1]; rfl
  unfold compare
  cases o <;> dsimp only [rel, runGt, runGe, runLe, runNe]
  · rw [e, ret_bind, lt1]
  · rw [e', ret_bind, lt2]
  · rw [e', ret_bind, lt2, not_lt' u t]; rfl
  · rw [e, ret_bind, lt1, not_lt' t u]; rfl
  · rw [e, ret_bind, eq1]
  · rw [e, ret_bind, eq1, not_eq' t u]; rfl

/-- the comparison type of automatic promotion holds both operand ranges -/
theorem autoCmp_in {T U : Opd} (hT : T.Wf) (hU : U.Wf)
    (h1 : (autoTemp T U).In T.lo ∧ (autoTemp T U).In T.hi) (h2 : (autoTemp T U).In U.lo ∧ (autoTemp T U).In U.hi) :
    ∃ R, autoResult .cmp T U = .ret R ∧ (R.In T.lo ∧ R.In T.hi) ∧ (R.In U.lo ∧ R.In U.hi) := by
  show ∃ R, autoCmp T U = .ret R ∧ _
  unfold autoCmp
  rw [castItv_eq hT, castItv_eq hU, ret_bind, ret_bind, castTo_of_in h1.1, castTo_of_in h1.2, castTo_of_in h2.1,
    castTo_of_in h2.2]
  obtain ⟨q1, q2⟩ := unionItv_proper (B := autoTemp T U) (t := ⟨.ok T.lo, .ok T.hi⟩) (u := ⟨.ok U.lo, .ok U.hi⟩)
    h1.1 h1.2 h2.1 h2.2
  obtain ⟨S, e, _, _, hS⟩ := autoEnds_spec (autoTemp_cases T U) q1 q2
  have hl : T.lo ≤ T.hi := hT.2.2.2.1
  have hl' : U.lo ≤ U.hi := hU.2.2.2.1
  have key : ∀ x, (T.Has x ∨ U.Has x) → (autoTemp T U).In x →
      Held (unionItv (autoTemp T U) ⟨.ok T.lo, .ok T.hi⟩ ⟨.ok U.lo, .ok U.hi⟩) x := by
    intro x hx _
    have hx1 : T.lo ≤ x ∧ x ≤ T.hi ∨ U.lo ≤ x ∧ x ≤ U.hi := hx
    unfold unionItv
    dsimp only
    rw [crLt_toBool h1.1 h2.1, crLt_toBool h1.2 h2.2]
    constructor
    · intro v hv
      dsimp only at hv
      split at hv <;> rename_i g <;> cases hv <;> simp at g <;> omega
    · intro v hv
      dsimp only at hv
      split at hv <;> rename_i g <;> cases hv <;> simp at g <;> omega
  refine ⟨S, e, ⟨?_, ?_⟩, ⟨?_, ?_⟩⟩
  · exact hS _ (key _ (Or.inl ⟨le_refl _, hl⟩) h1.1) h1.1
  · exact hS _ (key _ (Or.inl ⟨hl, le_refl _⟩) h1.2) h1.2
  · exact hS _ (key _ (Or.inr ⟨le_refl _, hl'⟩) h2.1) h2.1
  · exact hS _ (key _ (Or.inr ⟨hl', le_refl _⟩) h2.2) h2.2

private theorem widest_in {T U : Opd} (hT : T.Wf) (hU : U.Wf)
    (h : (∀ x, T.Has x ∨ U.Has x → tIntMax.In x) ∨ (T.base.signed = false ∧ U.base.signed = false)) :
    ((autoTemp T U).In T.lo ∧ (autoTemp T U).In T.hi) ∧ ((autoTemp T U).In U.lo ∧ (autoTemp T U).In U.hi) := by
  have hl : T.lo ≤ T.hi := hT.2.2.2.1
  have hl' : U.lo ≤ U.hi := hU.2.2.2.1
  unfold autoTemp
  split
  · rename_i g
    exact ⟨⟨hT.2.1.widen (by rw [g.1]; rfl) hT.1, hT.2.2.1.widen (by rw [g.1]; rfl) hT.1⟩,
      ⟨hU.2.1.widen (by rw [g.2]; rfl) hU.1, hU.2.2.1.widen (by rw [g.2]; rfl) hU.1⟩⟩
  · rename_i g
    have h := h.resolve_right g
    exact ⟨⟨h _ (Or.inl ⟨le_refl _, hl⟩), h _ (Or.inl ⟨hl, le_refl _⟩)⟩,
      ⟨h _ (Or.inr ⟨le_refl _, hl'⟩), h _ (Or.inr ⟨hl', le_refl _⟩)⟩⟩

/-- Automatic promotion: if both operand types are unsigned, or all their values fit the widest signed type, then a
comparison always compiles and never throws (with a throwing or trapping policy). -/
theorem C28_automatic (p : EP) (hp : p.ae = .throw ∨ p.ae = .trap) (o : Rel) (T U : Opd) (hT : T.Wf) (hU : U.Wf)
    (h : (∀ x, T.Has x ∨ U.Has x → tIntMax.In x) ∨ (T.base.signed = false ∧ U.base.signed = false))
    (t u : Int) (ht : T.Has t) (hu : U.Has u) : compare .automatic p o T U t u = .ret (rel o t u) := by
  have k := widest_in hT hU h
  have k' := widest_in hU hT (h.imp (fun g x hx => g x hx.symm) And.symm)
  obtain ⟨R, e, a, b⟩ := autoCmp_in hT hU k.1 k.2
  obtain ⟨R', e', a', b'⟩ := autoCmp_in hU hT k'.1 k'.2
  exact cmp_in hT hU (pp := .automatic) e e' a b b' a' o ht hu hp

omit [Arch] in
/-- in the type of the built-in expression the only conversion that can fail is that of a negative value -/
private theorem castTo_native {R : ITy} {T : Opd} (h : Fits R T) {t : Int} (ht : T.Has t) :
    castTo R t = if R.signed = false ∧ t < 0 then .err .domain_error else .ok t := by
  have h1 := h.1; have h2 := ht.1; have h3 := ht.2
  unfold castTo
  split
  · rfl
  · rename_i g
    have hmin : R.min ≤ t := by
      rcases hs : R.signed with _ | _
      · have e := ITy.min_eq R; rw [hs] at e; simp at e
        have : ¬ t < 0 := fun h' => g ⟨hs, h'⟩
        omega
      · have := h.2 hs; omega
    unfold exactOr
    rw [if_neg (by omega), if_neg (by omega)]

private theorem cmpIn_native {T U : Opd} (hT : T.Wf) (hU : U.Wf) {t u : Int} (ht : T.Has t) (hu : U.Has u) (b : Bool) :
    cmpIn (uac T.base U.base) t u b =
      if (uac T.base U.base).signed = false ∧ (t < 0 ∨ u < 0) then .thrown .domain_error else .ret b := by
  obtain ⟨f1, f2⟩ := native_fits hT hU
  unfold cmpIn
  rw [castTo_native f1 ht, castTo_native f2 hu]
  by_cases hs : (uac T.base U.base).signed = false <;> by_cases g1 : t < 0 <;> by_cases g2 : u < 0 <;>
    simp [hs, g1, g2]

/-- Native promotion, operands not literals: a comparison throws exactly when it would be carried out in an unsigned type
and an operand is negative; the exception is that `<`, `>`, `<=`, `>=` of types with disjoint ranges may be
answered (correctly) at compile time. -/
theorem C28_native (p : EP) (hp : p.ae = .throw) (o : Rel) (T U : Opd) (hT : T.Wf) (hU : U.Wf) (nT : NotLit T)
    (nU : NotLit U) (t u : Int) (ht : T.Has t) (hu : U.Has u) :
    let converts := (uac T.base U.base).signed = true ∨ (0 ≤ t ∧ 0 ≤ u)
    (converts → compare .native p o T U t u = .ret (rel o t u)) ∧
    (¬ converts → compare .native p o T U t u = .thrown .domain_error ∨
      (o ≠ .eq ∧ o ≠ .ne ∧ (T.hi < U.lo ∨ U.hi < T.lo) ∧ compare .native p o T U t u = .ret (rel o t u))) := by
  intro converts
  have dec : ∀ {T U : Opd} {t u : Int}, T.Wf → U.Wf → T.Has t → U.Has u → ∀ {R : ITy}, ltDecided R T U = true →
      T.hi < U.lo ∨ U.hi < T.lo := by
    intro T U t u hT hU ht hu R h
    unfold ltDecided at h
    rw [Bool.or_eq_true] at h
    rcases h with h | h
    · left; exact itvLt_tt ⟨hT.2.2.2.1, le_refl _⟩ ⟨le_refl _, hU.2.2.2.1⟩ h
    · right; exact itvGt_tt ⟨le_refl _, hT.2.2.2.1⟩ ⟨hU.2.2.2.1, le_refl _⟩ h
  have lt : ∀ {T U : Opd} {t u : Int}, T.Wf → U.Wf → NotLit T → NotLit U → T.Has t → U.Has u →
      runLt p (uac T.base U.base) T U t u = .ret (decide (t < u)) ∧ (T.hi < U.lo ∨ U.hi < T.lo) ∨
      runLt p (uac T.base U.base) T U t u =
        if (uac T.base U.base).signed = false ∧ (t < 0 ∨ u < 0) then .thrown .domain_error
        else .ret (decide (t < u)) := by
    intro T U t u hT hU nT nU ht hu
    rw [runLt_throw hp hT hU ht hu, if_neg (fun h => h.2 (litsOk nT nU)), cmpIn_native hT hU ht hu]
    split
    · rename_i h; exact Or.inl ⟨rfl, dec hT hU ht hu h⟩
    · exact Or.inr rfl
  have lt1 := lt hT hU nT nU ht hu
  have lt2 := lt hU hT nU nT hu ht
  have eq1 : runEq p (uac T.base U.base) T U t u =
      if (uac T.base U.base).signed = false ∧ (t < 0 ∨ u < 0) then .thrown .domain_error
        else .ret (decide (t = u)) := by
    rw [runEq_throw hp hT hU ht hu, if_neg (fun h => h.2 (litsOk nT nU)), cmpIn_native hT hU ht hu]
  rw [uac_comm U.base T.base] at lt2
  have hn : converts ↔ ¬ ((uac T.base U.base).signed = false ∧ (t < 0 ∨ u < 0)) := by
    show (_ ∨ _) ↔ _
    rcases (uac T.base U.base).signed with _ | _ <;> simp
  have hn' : converts ↔ ¬ ((uac T.base U.base).signed = false ∧ (u < 0 ∨ t < 0)) := by rw [hn, or_comm]
  have c1 : PP.native.result .cmp T U = .ret (uac T.base U.base) := rfl
  have c2 : PP.native.result .cmp U T = .ret (uac T.base U.base) := by rw [uac_comm]; rfl
  unfold compare
  rw [c1, c2]
  simp only [ret_bind]
  by_cases hc : converts
  · rw [if_neg (hn.1 hc)] at lt1 eq1
    rw [if_neg (hn'.1 hc)] at lt2
    have lt1 : runLt p (uac T.base U.base) T U t u = .ret (decide (t < u)) := lt1.elim And.left id
    have lt2 : runLt p (uac T.base U.base) U T u t = .ret (decide (u < t)) := lt2.elim And.left id
    refine ⟨fun _ => ?_, fun h => absurd hc h⟩
    cases o <;> dsimp only [rel, runGt, runGe, runLe, runNe]
    · exact lt1
    · exact lt2
    · rw [lt2, ret_bind, not_lt' u t]
    · rw [lt1, ret_bind, not_lt' t u]
    · exact eq1
    · rw [eq1, ret_bind, not_eq' t u]
  · rw [if_pos (not_not.1 (fun h => hc (hn.2 h)))] at lt1 eq1
    rw [if_pos (not_not.1 (fun h => hc (hn'.2 h)))] at lt2
    refine ⟨fun h => absurd h hc, fun _ => ?_⟩
    cases o <;> dsimp only [rel, runGt, runGe, runLe, runNe]
    · exact lt1.symm.imp id (fun h => ⟨by decide, by decide, h.2, h.1⟩)
    · exact lt2.symm.imp id (fun h => ⟨by decide, by decide, h.2.symm, h.1⟩)
    · rcases lt2 with h | h
      · right; refine ⟨by decide, by decide, h.2.symm, ?_⟩; rw [h.1, ret_bind, not_lt' u t]
      · left; rw [h]; rfl
    · rcases lt1 with h | h
      · right; refine ⟨by decide, by decide, h.2, ?_⟩; rw [h.1, ret_bind, not_lt' t u]
      · left; rw [h]; rfl
    · left; exact eq1
    · left; rw [eq1]; rfl

/-! ### C30 trap policy -/

/-- `+`, `-`, `*` with a trapping policy: either the program is rejected whatever the values are, or it returns the exact
result for all values. -/
theorem C30_arith (pp : PP) (hpp : pp.Wf) (p : EP) (hp : p.ae = .trap) (o : Arith)
    (ho : o = .add ∨ o = .sub ∨ o = .mul) (T U : Opd) (hT : T.Wf) (hU : U.Wf) :
    (∀ t u, T.Has t → U.Has u → arith pp p o T U t u = .fault .illFormed) ∨
    (∀ t u, T.Has t → U.Has u → arith pp p o T U t u = .ret (math o t u)) := by
  unfold arith
  rcases PP.result_total hpp (op := o.binOp) (by rcases ho with rfl | rfl | rfl <;> decide) hT hU with
    ⟨R, e, hR⟩ | e
  · rw [e]
    simp only [ret_bind]
    rcases ho with rfl | rfl | rfl
    · by_cases h : staticExc opAdd R T U = true
      · left; intro t u ht hu
        show runOp opAdd p R T U t u = _
        rw [runAdd_trap hp hT hU ht hu, if_pos h]
      · right; intro t u ht hu
        show runOp opAdd p R T U t u = _
        rw [runAdd_trap hp hT hU ht hu, if_neg h]; rfl
    · by_cases h : staticExc opSub R T U = true
      · left; intro t u ht hu
        show runOp opSub p R T U t u = _
        rw [runSub_trap hp hT hU ht hu, if_pos h]
      · right; intro t u ht hu
        show runOp opSub p R T U t u = _
        rw [runSub_trap hp hT hU ht hu, if_neg h]; rfl
    · by_cases h : staticExc opMul R T U = true
      · left; intro t u ht hu
        show runOp opMul p R T U t u = _
        rw [runMul_trap hp hR hT hU ht hu, if_pos h]
      · right; intro t u ht hu
        show runOp opMul p R T U t u = _
        rw [runMul_trap hp hR hT hU ht hu, if_neg h]; rfl
  · left; intro t u _ _; rw [e]; rfl

/-- the same for comparisons -/
theorem C30_compare (pp : PP) (hpp : pp.Wf) (p : EP) (hp : p.ae = .trap) (o : Rel) (T U : Opd) (hT : T.Wf)
    (hU : U.Wf) :
    (∀ t u, T.Has t → U.Has u → compare pp p o T U t u = .fault .illFormed) ∨
    (∀ t u, T.Has t → U.Has u → compare pp p o T U t u = .ret (rel o t u)) := by
  have lt : ∀ {T U : Opd}, T.Wf → U.Wf →
      (∀ t u, T.Has t → U.Has u → (do runLt p (← pp.result .cmp T U) T U t u) = .fault .illFormed) ∨
      (∀ t u, T.Has t → U.Has u → (do runLt p (← pp.result .cmp T U) T U t u) = .ret (decide (t < u))) := by
    intro T U hT hU
    rcases PP.result_total hpp (op := .cmp) (by decide) hT hU with ⟨R, e, _⟩ | e
    · rw [e]; simp only [ret_bind]
      by_cases h : cmpOpen R T U = true
      · left; intro t u ht hu; rw [runLt_trap hp hT hU ht hu, if_pos h]
      · right; intro t u ht hu; rw [runLt_trap hp hT hU ht hu, if_neg h]
    · left; intro t u _ _; rw [e]; rfl
  have ge : ∀ {T U : Opd}, T.Wf → U.Wf →
      (∀ t u, T.Has t → U.Has u → (do let b ← (do runLt p (← pp.result .cmp T U) T U t u); Out.ret (!b)) = .fault .illFormed) ∨
      (∀ t u, T.Has t → U.Has u → (do let b ← (do runLt p (← pp.result .cmp T U) T U t u); Out.ret (!b)) =
        .ret (decide (u ≤ t))) := by
    intro T U hT hU
    refine (lt hT hU).imp (fun h t u ht hu => ?_) (fun h t u ht hu => ?_)
    · rw [h t u ht hu]; rfl
    · rw [h t u ht hu, not_lt']; rfl
  have eq : (∀ t u, T.Has t → U.Has u → (do runEq p (← pp.result .cmp T U) T U t u) = .fault .illFormed) ∨
      (∀ t u, T.Has t → U.Has u → (do runEq p (← pp.result .cmp T U) T U t u) = .ret (decide (t = u))) := by
    rcases PP.result_total hpp (op := .cmp) (by decide) hT hU with ⟨R, e, _⟩ | e
    · rw [e]; simp only [ret_bind]
      by_cases h : cmpOpen R T U = true
      · left; intro t u ht hu; rw [runEq_trap hp hT hU ht hu, if_pos h]
      · right; intro t u ht hu; rw [runEq_trap hp hT hU ht hu, if_neg h]
    · left; intro t u _ _; rw [e]; rfl
  have assoc : ∀ {α β γ : Type} (a : Out α) (f : α → Out β) (g : β → Out γ),
      (a >>= fun x => f x >>= g) = ((a >>= f) >>= g) := by intro α β γ a f g; cases a <;> rfl
  cases o
  · exact lt hT hU
  · exact (lt hU hT).imp (fun h t u ht hu => h u t hu ht) (fun h t u ht hu => h u t hu ht)
  · refine (ge hU hT).imp (fun h t u ht hu => ?_) (fun h t u ht hu => ?_)
    · exact (assoc _ _ _).trans (h u t hu ht)
    · exact (assoc _ _ _).trans (h u t hu ht)
  · refine (ge hT hU).imp (fun h t u ht hu => ?_) (fun h t u ht hu => ?_)
    · exact (assoc _ _ _).trans (h t u ht hu)
    · exact (assoc _ _ _).trans (h t u ht hu)
  · exact eq
  · refine eq.imp (fun h t u ht hu => ?_) (fun h t u ht hu => ?_)
    · refine (assoc _ _ _).trans ?_; rw [h t u ht hu]; rfl
    · refine (assoc _ _ _).trans ?_; rw [h t u ht hu]; show _ = Out.ret (rel .ne t u); dsimp only [rel]; rw [not_eq']; rfl

/-- the same for construction and assignment -/
theorem C30_construct (p : EP) (hp : p.ae = .trap) (S T : Opd) (hS : S.Wf) (hT : T.Wf) :
    (∀ t, T.Has t → construct p S T t = .fault .illFormed) ∨
    (∀ t, T.Has t → construct p S T t = .ret t ∧ S.Has t) := by
  by_cases h : ∃ t, T.Has t ∧ construct p S T t ≠ .fault .illFormed
  · right
    obtain ⟨t₀, ht₀, h⟩ := h
    intro t ht
    have key : construct p S T t = .ret t := by
      unfold construct at *
      split
      · rfl
      · rename_i hne
        rw [if_neg hne, validate_eq hS.2.1 hS.2.2.1 hT ht₀, hp] at h
        rw [validate_eq hS.2.1 hS.2.2.1 hT ht, hp]
        split
        · rename_i g; rw [if_pos g] at h; exact absurd rfl h
        · rename_i g; rw [if_neg g] at h
          split
          · rfl
          · rename_i g'; rw [if_neg g'] at h; exact absurd rfl h
    exact ⟨key, (C21_any_policy p S T hS hT t t ht key).2⟩
  · left
    intro t ht
    by_contra hh
    exact h ⟨t, ht, hh⟩

/-! ### C41 symmetry -/

private theorem crMul_zero {R : ITy} (hR : R.Ok) {d : CR} (hd : Proper R d) (nv : ¬ Vague d) :
    crMul R (.ok 0) d = .ret (.ok 0) ∧ crMul R d (.ok 0) = .ret (.ok 0) := by
  have z : R.In 0 := ITy.in_zero R
  rcases d.cases4 with ⟨b, rfl⟩ | rfl | rfl | hv
  · rw [crMul_ok hR z hd, crMul_ok hR hd z]
    have : exactOr R.min R.max 0 = .ok 0 := by
      have h1 := z.1; have h2 := z.2
      unfold exactOr; rw [if_neg (by omega), if_neg (by omega)]
    simp [this]
  · rw [crMul_ok_neg z, crMul_neg_ok z]; exact ⟨rfl, rfl⟩
  · rw [crMul_ok_pos z, crMul_pos_ok z]; exact ⟨rfl, rfl⟩
  · exact absurd hv nv

/-- a product with an operand type `[0, 0]` needs no check unless the other type has negative values and the result is
unsigned -/
private theorem mul_zero_static {R : ITy} (hR : R.Ok) {T U : Opd} (hT : T.Wf) (hU : U.Wf) (hz : T.lo = 0 ∧ T.hi = 0) :
    staticExc opMul R T U = staticExc opMul R U T := by
  have z : castTo R 0 = .ok 0 := castTo_of_in (ITy.in_zero R)
  by_cases hv : Vague (castTo R U.lo)
  · obtain ⟨r1, e1, p1, _, v1, _⟩ := mul_held hR hT hU
    obtain ⟨r2, e2, p2, _, v2, _⟩ := mul_held hR hU hT
    have h1 : staticExc opMul R T U = true := by
      unfold staticExc; rw [show resItv opMul.itv R T U = .ret r1 from e1]
      show excPossible R r1 = true
      unfold excPossible
      rw [exc_of_vague (v1 (Or.inr hv)).1 (fun _ _ => trivial) _ p1]; rfl
    have h2 : staticExc opMul R U T = true := by
      unfold staticExc; rw [show resItv opMul.itv R U T = .ret r2 from e2]
      show excPossible R r2 = true
      unfold excPossible
      rw [exc_of_vague (v2 (Or.inl hv)).1 (fun _ _ => trivial) _ p2]; rfl
    rw [h1, h2]
  · have hv' : ¬ Vague (castTo R U.hi) := by
      rw [castTo_vague] at *
      have := hU.2.2.2.1
      rintro ⟨h1, h2⟩; exact hv ⟨h1, by omega⟩
    have a := crMul_zero hR (castTo_proper (x := U.lo)) hv
    have b := crMul_zero hR (castTo_proper (x := U.hi)) hv'
    have mm : minmax4 R (.ok 0) (.ok 0) (.ok 0) (.ok 0) = .ret ⟨.ok 0, .ok 0⟩ := by
      obtain ⟨m, M, e, i1, i2, _⟩ := minmax_cr (R := R) (.ok 0) [.ok 0, .ok 0, .ok 0] (by
        intro c hc; simp at hc; rw [hc]; exact ITy.in_zero R)
      unfold minmax4
      rw [e]; simp at i1 i2; rw [i1, i2]; rfl
    have e1 : resItv itvMul R T U = .ret ⟨.ok 0, .ok 0⟩ := by
      apply resItv_of hT hU
      unfold itvMul corners
      dsimp only
      rw [hz.1, hz.2, z, a.1, b.1]
      simp only [ret_bind]
      exact mm
    have e2 : resItv itvMul R U T = .ret ⟨.ok 0, .ok 0⟩ := by
      apply resItv_of hU hT
      unfold itvMul corners
      dsimp only
      rw [hz.1, hz.2, z, a.2, b.2]
      simp only [ret_bind]
      exact mm
    unfold staticExc
    rw [show resItv opMul.itv R T U = _ from e1, show resItv opMul.itv R U T = _ from e2]

omit [Arch] in
private theorem exactIn_comm (R : ITy) (t u v : Int) : SameUpToCode (exactIn R t u v) (exactIn R u t v) := by
  unfold exactIn
  rcases castTo R t with a | e <;> rcases castTo R u with b | e'
  · exact Or.inl rfl
  · exact Or.inl rfl
  · exact Or.inl rfl
  · exact Or.inr ⟨⟨_, rfl⟩, ⟨_, rfl⟩⟩

/-- `a + b` and `b + a`, `a * b` and `b * a`: whenever the promotion policy gives the two expressions the same type, they
have the same value or both throw. The error codes can differ, see `C41_codes_refuted`. -/
theorem C41_policy_partial (pp : PP) (p : EP) (hp : p.ae = .throw) (o : Arith) (ho : o = .add ∨ o = .mul) (T U : Opd)
    (hT : T.Wf) (hU : U.Wf) (nT : NotLit T) (nU : NotLit U) (R : ITy) (hR : R.Ok)
    (h1 : pp.result o.binOp T U = .ret R) (h2 : pp.result o.binOp U T = .ret R)
    (t u : Int) (ht : T.Has t) (hu : U.Has u) :
    SameUpToCode (arith pp p o T U t u) (arith pp p o U T u t) := by
  unfold arith
  rw [h1, h2]
  simp only [ret_bind]
  rcases ho with rfl | rfl
  · show SameUpToCode (runOp opAdd p R T U t u) (runOp opAdd p R U T u t)
    rw [runAdd_throw hp hT hU ht hu, runAdd_throw hp hU hT hu ht, if_neg (fun h => h.2 (litsOk nT nU)),
      if_neg (fun h => h.2 (litsOk nU nT)), Int.add_comm u t]
    exact exactIn_comm _ _ _ _
  · show SameUpToCode (runOp opMul p R T U t u) (runOp opMul p R U T u t)
    rw [runMul_throw hp hR hT hU ht hu, runMul_throw hp hR hU hT hu ht, if_pos (litsOk nT nU), if_pos (litsOk nU nT),
      Int.mul_comm u t]
    by_cases z1 : ZeroRange T
    · rw [mul_zero_static hR hT hU z1]
      split
      · exact exactIn_comm _ _ _ _
      · exact Or.inl rfl
    · by_cases z2 : ZeroRange U
      · rw [← mul_zero_static hR hU hT z2]
        split
        · exact exactIn_comm _ _ _ _
        · exact Or.inl rfl
      · have k1 : (if staticExc opMul R T U = true then exactIn R t u (t * u) else .ret (t * u)) =
            exactIn R t u (t * u) := by
          split
          · rfl
          · rename_i h
            rcases mul_static hR hT hU (by simpa using h) ht hu with g | g | g
            · exact (exactIn_of_in g.1 g.2.1 g.2.2).symm
            · exact absurd g z1
            · exact absurd g z2
        have k2 : (if staticExc opMul R U T = true then exactIn R u t (t * u) else .ret (t * u)) =
            exactIn R u t (t * u) := by
          split
          · rfl
          · rename_i h
            rcases mul_static hR hU hT (by simpa using h) hu ht with g | g | g
            · exact (exactIn_of_in g.1 g.2.1 (by rw [Int.mul_comm]; exact g.2.2)).symm
            · exact absurd g z2
            · exact absurd g z1
        rw [k1, k2]
        exact exactIn_comm _ _ _ _

/-- Under native promotion the two expressions have the same type and the same outcome, error codes included. -/
theorem C41_native (p : EP) (hp : p.ae = .throw) (o : Arith) (ho : o = .add ∨ o = .mul) (T U : Opd)
    (hT : T.Wf) (hU : U.Wf) (nT : NotLit T) (nU : NotLit U) (t u : Int) (ht : T.Has t) (hu : U.Has u) :
    arith .native p o T U t u = arith .native p o U T u t := by
  have hv : math o t u = math o u t := by
    rcases ho with rfl | rfl
    · exact Int.add_comm t u
    · exact Int.mul_comm t u
  rw [C23_native p hp o (by tauto) T U hT hU nT nU t u ht hu, C23_native p hp o (by tauto) U T hU hT nU nT u t hu ht,
    uac_comm U.base T.base, hv]
  obtain ⟨f1, f2⟩ := native_fits hT hU
  unfold exactIn
  rw [castTo_native f1 ht, castTo_native f2 hu]
  by_cases hs : (uac T.base U.base).signed = false <;> by_cases g1 : t < 0 <;> by_cases g2 : u < 0 <;>
    simp [hs, g1, g2]

/-- `a < b` is `b > a`, `a <= b` is `b >= a` up to the order in which operands are reported; `>=` and `!=` are the
negations of `<` and `==`. -/
theorem C41_compare (pp : PP) (p : EP) (T U : Opd) (t u : Int) :
    compare pp p .lt T U t u = compare pp p .gt U T u t ∧
    compare pp p .le T U t u = compare pp p .ge U T u t ∧
    compare pp p .ge T U t u = (do let b ← compare pp p .lt T U t u; .ret (!b)) ∧
    compare pp p .ne T U t u = (do let b ← compare pp p .eq T U t u; .ret (!b)) := by
  have assoc : ∀ {α β γ : Type} (a : Out α) (f : α → Out β) (g : β → Out γ),
      (a >>= fun x => f x >>= g) = ((a >>= f) >>= g) := by intro α β γ a f g; cases a <;> rfl
  exact ⟨rfl, rfl, assoc _ _ _, assoc _ _ _⟩

/-- `a == b` and `b == a`, `a < b` and `b > a`: no two orders of writing a comparison give contradictory answers, for any
promotion policy. -/
theorem C41_consistent (pp : PP) (hpp : pp.Wf) (p : EP) (hp : p.ae = .throw) (o o' : Rel)
    (ho : (o, o') ∈ [(Rel.lt, Rel.gt), (.le, .ge), (.eq, .eq), (.ne, .ne)])
    (T U : Opd) (hT : T.Wf) (hU : U.Wf) (t u : Int)
    (ht : T.Has t) (hu : U.Has u) (a b : Bool) (ha : compare pp p o T U t u = .ret a)
    (hb : compare pp p o' U T u t = .ret b) : a = b := by
  have h1 := C28_exact pp hpp p hp o T U hT hU t u ht hu
  have h2 := C28_exact pp hpp p hp o' U T hU hT u t hu ht
  rw [ha] at h1; rw [hb] at h2
  have k1 : a = rel o t u := by
    rcases h1 with h | ⟨_, h⟩ | h <;> cases h; rfl
  have k2 : b = rel o' u t := by
    rcases h2 with h | ⟨_, h⟩ | h <;> cases h; rfl
  rw [k1, k2]
  simp at ho
  rcases ho with ⟨rfl, rfl⟩ | ⟨rfl, rfl⟩ | ⟨rfl, rfl⟩ | ⟨rfl, rfl⟩ <;> dsimp only [rel]
  · exact decide_eq_decide.2 eq_comm
  · exact decide_eq_decide.2 (not_congr eq_comm)

/-- Under native promotion `==` and `!=` have the same outcome in both orders. -/
theorem C41_eq_native (p : EP) (hp : p.ae = .throw) (o : Rel) (ho : o = .eq ∨ o = .ne) (T U : Opd) (hT : T.Wf) (hU : U.Wf)
    (nT : NotLit T) (nU : NotLit U) (t u : Int) (ht : T.Has t) (hu : U.Has u) :
    compare .native p o T U t u = compare .native p o U T u t := by
  have a := C28_native p hp o T U hT hU nT nU t u ht hu
  have b := C28_native p hp o U T hU hT nU nT u t hu ht
  rw [uac_comm U.base T.base] at b
  have hr : rel o t u = rel o u t := by
    rcases ho with rfl | rfl <;> dsimp only [rel]
    · exact decide_eq_decide.2 eq_comm
    · exact decide_eq_decide.2 (not_congr eq_comm)
  dsimp only at a b
  by_cases h : (uac T.base U.base).signed = true ∨ 0 ≤ t ∧ 0 ≤ u
  · rw [a.1 h, b.1 (by tauto), hr]
  · have a' := (a.2 h).resolve_right (by rintro ⟨h1, h2, _⟩; tauto)
    have b' := (b.2 (by tauto)).resolve_right (by rintro ⟨h1, h2, _⟩; tauto)
    rw [a', b']

/-! ### C47 no undefined behaviour -/

omit [Arch] in
private theorem noUb_of {α : Type} {o : Out α} {v : α} (h : ExactOrThrows o v) : NoUb o := by
  rcases h with h | ⟨e, h⟩ | h <;> rw [h] <;> exact ⟨by simp, by simp⟩

/-- construction, conversion, comparison, `+`, `-`, `*` with a throwing policy: no undefined behaviour and no failed
assertion, for every promotion policy -/
theorem C47_noUb (pp : PP) (hpp : pp.Wf) (p : EP) (hp : p.ae = .throw) (T U : Opd) (hT : T.Wf) (hU : U.Wf)
    (t u : Int) (ht : T.Has t) (hu : U.Has u) :
    NoUb (construct p U T t) ∧ (∀ R : ITy, NoUb (toBuiltin p R T t)) ∧ (∀ o, NoUb (compare pp p o T U t u)) ∧
    (∀ o, o = .add ∨ o = .sub ∨ o = .mul → NoUb (arith pp p o T U t u)) := by
  refine ⟨?_, fun R => ?_, fun o => ?_, fun o ho => ?_⟩
  · rcases C21_construct p hp U T hU hT t ht with h | h | h
    · exact noUb_of (Or.inl h.1)
    · exact noUb_of (v := 0) (Or.inr (Or.inl h.1))
    · exact noUb_of (v := 0) (Or.inr (Or.inr h))
  · have h := C22_toBuiltin p hp R T hT t ht
    by_cases g : R.In t
    · exact noUb_of (Or.inl (h.1 g))
    · exact noUb_of (v := 0) (Or.inr (Or.inl (h.2 g)))
  · exact noUb_of (C28_exact pp hpp p hp o T U hT hU t u ht hu)
  · exact noUb_of (C23_exact pp hpp p hp o ho T U hT hU t u ht hu)

/-! ### C48 numeric limits -/

/-- `numeric_limits` of a safe type: `lowest() = min() = Min`, `max() = Max`; both are values of the type that can be
stored through the checking constructor; every value stored through it lies between them; every value between
them can be stored. -/
theorem C48_limits (p : EP) (hp : p.ae = .throw) (S : Opd) (hS : S.Wf) :
    limLowest S = S.lo ∧ limMin S = S.lo ∧ limMax S = S.hi ∧
    construct p S (Opd.ofBuiltin S.base) (limMin S) = .ret (limMin S) ∧
    construct p S (Opd.ofBuiltin S.base) (limMax S) = .ret (limMax S) ∧
    (∀ (T : Opd) (t v : Int), T.Wf → T.Has t → construct p S T t = .ret v → limMin S ≤ v ∧ v ≤ limMax S) ∧
    (∀ v, limMin S ≤ v → v ≤ limMax S → construct p S (Opd.ofBuiltin S.base) v = .ret v) := by
  have wf : (Opd.ofBuiltin S.base).Wf :=
    ⟨hS.1, S.base.in_min, S.base.in_max, S.base.min_le_max, fun _ => ⟨rfl, rfl⟩, fun b hb => by cases hb⟩
  have store : ∀ v, S.lo ≤ v → v ≤ S.hi → construct p S (Opd.ofBuiltin S.base) v = .ret v := by
    intro v h1 h2
    have i1 := hS.2.1.1; have i2 := hS.2.2.1.2
    have hv : (Opd.ofBuiltin S.base).Has v := ⟨by show S.base.min ≤ v; omega, by show v ≤ S.base.max; omega⟩
    have k := C21_construct p hp S _ hS wf v hv
    rcases k with h | h | h
    · exact h.1
    · exact absurd ⟨h1, h2⟩ h.2
    · exact absurd ⟨h1, h2⟩ (C21_rejected p hp S _ hS wf v hv h v hv).1
  refine ⟨rfl, rfl, rfl, store _ (le_refl _) hS.2.2.2.1, store _ hS.2.2.2.1 (le_refl _), ?_, store⟩
  intro T t v hT ht h
  obtain ⟨rfl, h⟩ := C21_any_policy p S T hS hT t v ht h
  exact h

end

section
attribute [local instance] lp64

/-! ### Examples and refutations -/

/-- C28: `safe<int>(-1) < 1u` throws under native promotion and is answered under automatic promotion; a compile time
answer -/
example : compare .native strictException .lt (Opd.ofSafe i32) (Opd.ofBuiltin u32) (-1) 1 =
    .thrown .domain_error := by decide +kernel
example : compare .automatic strictException .lt (Opd.ofSafe i32) (Opd.ofBuiltin u32) (-1) 1 = .ret true := by
  decide +kernel
example : compare .native strictException .gt (Opd.range i32 (-5) 3) (Opd.range u32 7 9) (-5) 8 = .ret false := by
  decide +kernel
example : ∀ x, (Opd.ofSafe i32).Has x ∨ (Opd.ofBuiltin u32).Has x → tIntMax.In x := by
  have h1 : tIntMax.min = -9223372036854775808 := by decide
  have h2 : tIntMax.max = 9223372036854775807 := by decide
  have h3 : i32.min = -2147483648 := by decide
  have h4 : i32.max = 2147483647 := by decide
  have h5 : u32.min = 0 := by decide
  have h6 : u32.max = 4294967295 := by decide
  intro x hx
  have hx : i32.min ≤ x ∧ x ≤ i32.max ∨ u32.min ≤ x ∧ x ≤ u32.max := hx
  constructor <;> omega

/-- C30: with the trap policy `safe_range<0,100> + safe_range<0,100>` compiles, `safe<int> + safe<int>` does not -/
example : arith .native looseTrap .add (Opd.range i32 0 100) (Opd.range i32 0 100) 100 100 = .ret 200 := by
  decide +kernel
example : arith .native looseTrap .add (Opd.ofSafe i32) (Opd.ofSafe i32) 1 1 = .fault .illFormed := by decide +kernel

/-- C41: the codes of two orders differ under automatic promotion: `[1000,1010] + [-1010,-1000]` -/
theorem C41_codes_refuted :
    arith .automatic strictException .add (Opd.range i16 1000 1010) (Opd.range i16 (-1010) (-1000)) 1000 (-1000) =
      .thrown .positive_overflow_error ∧
    arith .automatic strictException .add (Opd.range i16 (-1010) (-1000)) (Opd.range i16 1000 1010) (-1000) 1000 =
      .thrown .negative_overflow_error := by decide +kernel

/-- C41: with an emulated machine `cpp<8,8,8,8,8>` the types `int16` and `int32` are both unknown (rank 6), and the first
operand decides the type of the sum: one order throws, the other does not -/
theorem C41_cpp_refuted :
    PP.Wf (.cpp ⟨0, 0, 0, 0, 0⟩) ∧
    arith (.cpp ⟨0, 0, 0, 0, 0⟩) strictException .add (Opd.ofSafe i16) (Opd.ofSafe i32) 1 100000 =
      .thrown .positive_overflow_error ∧
    arith (.cpp ⟨0, 0, 0, 0, 0⟩) strictException .add (Opd.ofSafe i32) (Opd.ofSafe i16) 100000 1 =
      .ret 100001 := by decide +kernel

example : construct strictException (Opd.range i8 (-10) 100) (Opd.ofBuiltin i8) (limMax (Opd.range i8 (-10) 100)) =
    .ret 100 := by decide +kernel
end
end Verif.Props
