import Verif.SafeOps
import Verif.Proofs.Interval

/-! Helper lemmas about constructors, conversions and operators of safe types. -/

namespace Verif
open Spec

section
variable [Arch]

/-! ### conversions -/

omit [Arch] in
theorem castTo_of_in {R : ITy} {x : Int} (h : R.In x) : castTo R x = .ok x := by
  unfold castTo
  rw [if_neg (by rintro ⟨h1, h2⟩; have := h.nonneg h1; omega), exactOr_of_in h.1 h.2]

omit [Arch] in
theorem castTo_ok {R : ITy} {x v : Int} (h : castTo R x = .ok v) : v = x ∧ R.In x := by
  unfold castTo exactOr at h
  split_ifs at h with h1 h2 h3
  simp at h; exact ⟨h.symm, by omega, by omega⟩

omit [Arch] in
theorem castTo_iff {R : ITy} {x : Int} : (∃ v, castTo R x = .ok v) ↔ R.In x :=
  ⟨fun ⟨_, h⟩ => (castTo_ok h).2, fun h => ⟨_, castTo_of_in h⟩⟩

omit [Arch] in
theorem castTo_proper {R : ITy} {x : Int} : Proper R (castTo R x) := by
  unfold castTo; split_ifs
  · show _ ≠ _; decide
  · exact proper_exactOr _

omit [Arch] in
theorem castTo_describes {R : ITy} (x : Int) : Describes R (castTo R x) x := by
  unfold castTo; split_ifs
  · trivial
  · exact exactOr_describes x

omit [Arch] in
theorem castTo_lower {R : ITy} {x z : Int} (h : x ≤ z) : LowerOk R (castTo R x) z := by
  unfold castTo; split_ifs
  · trivial
  · exact lowerOk_exactOr h

omit [Arch] in
theorem castTo_upper {R : ITy} {x z : Int} (h : z ≤ x) : UpperOk R (castTo R x) z := by
  unfold castTo; split_ifs
  · trivial
  · exact upperOk_exactOr h

omit [Arch] in
theorem castTo_vague {R : ITy} {x : Int} : Vague (castTo R x) ↔ R.signed = false ∧ x < 0 := by
  unfold castTo; split_ifs with h
  · exact ⟨fun _ => h, fun _ => ⟨_, rfl, by decide, by decide⟩⟩
  · exact ⟨fun v => absurd v not_vague_exactOr, fun g => absurd g h⟩

/-- `cast` to the full range of a type, for any handler -/
theorem cast_full {R T : ITy} {h : Handler} {t : Int} (ht : T.In t) :
    cast R R.min R.max T h t = match castTo R t with | .ok v => .ret (.ok v) | .err e => h e := by
  rw [cast_eq ht R.in_min R.in_max]
  have hz := R.min_nonpos
  have e := ITy.min_eq R
  unfold castTo exactOr
  by_cases hn : t < 0
  · have hT : T.signed = true := by
      rcases hs : T.signed with _ | _
      · have := ht.nonneg hs; omega
      · rfl
    rcases hs : R.signed with _ | _
    · rw [hs] at e; simp at e
      simp [hT, hn, e]
    · simp only [hT, Bool.true_eq_false, false_and, if_false, if_true]
      split_ifs <;> rfl
  · rw [if_neg (by omega), if_neg (show ¬ (R.signed = false ∧ t < 0) by omega)]
    split_ifs <;> first | rfl | omega

theorem checkedCast_eq {R T : ITy} {t : Int} (ht : T.In t) : checkedCast R T t = .ret (castTo R t) := by
  unfold checkedCast
  rw [cast_full ht]
  have p : Proper R (castTo R t) := castTo_proper
  rcases hc : castTo R t with v | e
  · rfl
  · rw [hc] at p
    show mkErr e = _
    unfold mkErr; rw [if_neg p]

theorem castItv_eq {R : ITy} {T : Opd} (h : T.Wf) : castItv R T = .ret ⟨castTo R T.lo, castTo R T.hi⟩ := by
  unfold castItv
  rw [checkedCast_eq h.2.1, checkedCast_eq h.2.2.1]; rfl

/-! ### handlers -/

omit [Arch] in
theorem handler_throw {p : EP} (hp : p.ae = .throw) {e : Err} (he : makeAction e = .arithmetic_error) :
    dispatchAndReturn p e = .thrown e := by
  unfold dispatchAndReturn dispatch EP.act
  rw [he, hp]; rfl

omit [Arch] in
theorem handler_ignore {p : EP} (hp : p.ae = .ignore) {e : Err} (he : makeAction e = .arithmetic_error) :
    dispatchAndReturn p e = .ret (.err e) := by
  unfold dispatchAndReturn dispatch EP.act
  rw [he, hp]
  cases e <;> first | rfl | cases he

omit [Arch] in
theorem handler_user {p : EP} {f : List Err} (hp : p.ae = .user f) {e : Err} (he : makeAction e = .arithmetic_error) :
    dispatchAndReturn p e = if f.contains e then .ret (.err e) else .thrown e := by
  unfold dispatchAndReturn dispatch EP.act
  rw [he, hp]
  show (if f.contains e then Out.ret () else Out.thrown e) >>= (fun _ => mkErr e) = _
  cases hf : f.contains e
  · rfl
  · cases e <;> first | rfl | cases he

omit [Arch] in
theorem castTo_arith {R : ITy} {x : Int} {e : Err} (h : castTo R x = .err e) : makeAction e = .arithmetic_error := by
  unfold castTo exactOr at h
  split_ifs at h <;> simp at h <;> subst h <;> rfl

omit [Arch] in
theorem exactOr_arith {lo hi x : Int} {e : Err} (h : exactOr lo hi x = .err e) :
    makeAction e = .arithmetic_error := by
  unfold exactOr at h
  split_ifs at h <;> simp at h <;> subst h <;> rfl

omit [Arch] in
theorem traps_cast (p : EP) (R T : ITy) : p.traps (castErrs R T) = decide (p.ae = .trap) := by
  unfold castErrs EP.traps
  rcases R.signed with _ | _ <;> rcases T.signed with _ | _ <;> cases h : p.ae <;>
    simp [makeAction, EP.act, h]

omit [Arch] in
theorem traps_arith (p : EP) : p.traps [.positive_overflow_error, .negative_overflow_error] = decide (p.ae = .trap) := by
  cases h : p.ae <;> simp [EP.traps, makeAction, EP.act, h]

omit [Arch] in
theorem traps_div (p : EP) : p.traps [.domain_error, .positive_overflow_error] = decide (p.ae = .trap) := by
  cases h : p.ae <;> simp [EP.traps, makeAction, EP.act, h]

omit [Arch] in
theorem traps_mod (p : EP) : p.traps [.domain_error] = decide (p.ae = .trap) := by
  cases h : p.ae <;> simp [EP.traps, makeAction, EP.act, h]

/-! ### tribool facts -/

omit [Arch] in
theorem T3.or_toBool (a b : T3) : (a.or b).toBool = (a.toBool || b.toBool) := by cases a <;> cases b <;> rfl
omit [Arch] in
theorem T3.and_toBool (a b : T3) : (a.and b).toBool = (a.toBool && b.toBool) := by cases a <;> cases b <;> rfl

theorem crLe_toBool {R : ITy} {a b : CR} (h : (crLe R a b).toBool = true) : crLt R b a = .ff := by
  unfold crLe at h
  revert h; cases crLt R b a <;> decide

theorem crLt_tt {R : ITy} {a b : CR} {x y : Int} (ha : Describes R a x) (hb : Describes R b y)
    (h : (crLt R a b).toBool = true) : x < y := by
  apply (crLt_sound ha hb).1
  revert h; cases crLt R a b <;> decide

theorem crLt_ff {R : ITy} {a b : CR} {x y : Int} (ha : Describes R a x) (hb : Describes R b y)
    (h : crLt R a b = .ff) : y ≤ x := by
  have := (crLt_sound ha hb).2 h; omega

/-! ### validation -/

/-- the compile time tests of `validate` -/
def exclStatic (R : ITy) (mn mx : Int) (T : Opd) : Bool :=
  ((⟨.ok mn, .ok mx⟩ : Itv CR).excludes (crCmp R) ⟨castTo R T.lo, castTo R T.hi⟩).toBool
def inclStatic (R : ITy) (mn mx : Int) (T : Opd) : Bool :=
  ((⟨.ok mn, .ok mx⟩ : Itv CR).includes (crCmp R) ⟨castTo R T.lo, castTo R T.hi⟩).toBool

theorem exclStatic_sound {R : ITy} {mn mx : Int} {T : Opd} (hmn : R.In mn) (hmx : R.In mx)
    (h : exclStatic R mn mx T = true) : mx < T.lo ∨ T.hi < mn := by
  unfold exclStatic at h
  change ((crLt R (castTo R T.hi) (.ok mn)).or (crLt R (.ok mx) (castTo R T.lo))).toBool = true at h
  rw [T3.or_toBool, Bool.or_eq_true] at h
  rcases h with h | h
  · right; exact crLt_tt (castTo_describes _) (show Describes R (.ok mn) mn from ⟨hmn, rfl⟩) h
  · left; exact crLt_tt (show Describes R (.ok mx) mx from ⟨hmx, rfl⟩) (castTo_describes _) h

theorem inclStatic_sound {R : ITy} {mn mx : Int} {T : Opd} (hmn : R.In mn) (hmx : R.In mx)
    (h : inclStatic R mn mx T = true) : mn ≤ T.lo ∧ T.hi ≤ mx := by
  unfold inclStatic at h
  change ((crGe R (.ok mx) (castTo R T.hi)).and (crLe R (.ok mn) (castTo R T.lo))).toBool = true at h
  rw [T3.and_toBool, Bool.and_eq_true] at h
  have h1 : crLt R (.ok mx) (castTo R T.hi) = .ff := by
    have := h.1; revert this
    show ((crLt R (.ok mx) (castTo R T.hi)).not).toBool = true → _
    cases crLt R (.ok mx) (castTo R T.hi) <;> decide
  exact ⟨crLt_ff (castTo_describes _) (show Describes R (.ok mn) mn from ⟨hmn, rfl⟩) (crLe_toBool h.2),
    crLt_ff (show Describes R (.ok mx) mx from ⟨hmx, rfl⟩) (castTo_describes _) h1⟩

/-- a target that contains the whole source range is recognised at compile time -/
theorem inclStatic_complete {R : ITy} {mn mx : Int} {T : Opd} (hmn : R.In mn) (hmx : R.In mx) (hT : T.lo ≤ T.hi)
    (h : mn ≤ T.lo ∧ T.hi ≤ mx) : inclStatic R mn mx T = true := by
  have h1 : R.In T.lo := ⟨by have := hmn.1; omega, by have := hmx.2; omega⟩
  have h2 : R.In T.hi := ⟨by have := hmn.1; omega, by have := hmx.2; omega⟩
  unfold inclStatic
  rw [castTo_of_in h1, castTo_of_in h2]
  show (((crLt R (.ok mx) (.ok T.hi)).not).and ((crLt R (.ok T.lo) (.ok mn)).not)).toBool = true
  rw [crLt_ok hmx h2, crLt_ok h1 hmn, decide_eq_false (by omega), decide_eq_false (by omega)]
  rfl

/-- the error of a bounded cast -/
def boundErr (R : ITy) (mn mx : Int) (T : ITy) (t : Int) : Err :=
  if R.signed = false ∧ T.signed = true ∧ t < mn then .domain_error
  else if mx < t then .positive_overflow_error
  else if T.signed then .negative_overflow_error else .positive_overflow_error

omit [Arch] in
theorem boundErr_arith {R : ITy} {mn mx : Int} {T : ITy} {t : Int} :
    makeAction (boundErr R mn mx T t) = .arithmetic_error := by
  unfold boundErr; split_ifs <;> rfl

theorem cast_bound {R T : ITy} {mn mx : Int} {h : Handler} {t : Int} (ht : T.In t) (hmn : R.In mn) (hmx : R.In mx) :
    cast R mn mx T h t = if mn ≤ t ∧ t ≤ mx then .ret (.ok t) else h (boundErr R mn mx T t) := by
  rw [cast_eq ht hmn hmx]
  unfold boundErr
  by_cases g : mn ≤ t ∧ t ≤ mx
  · rw [if_pos g, if_neg (by omega), if_neg (by omega), if_neg (by omega)]
  · rw [if_neg g]
    split_ifs <;> first | rfl | omega

omit [Arch] in
theorem Opd.Wf.has_in [Arch] {T : Opd} {t : Int} (h : T.Wf) (ht : T.Has t) : T.base.In t :=
  ⟨by have := h.2.1.1; have := ht.1; omega, by have := h.2.2.1.2; have := ht.2; omega⟩

/-- closed form of validation, for any policy -/
theorem validate_eq {R : ITy} {mn mx : Int} {p : EP} {T : Opd} {t : Int} (hmn : R.In mn) (hmx : R.In mx)
    (hT : T.Wf) (ht : T.Has t) :
    validate R mn mx p T t =
      if exclStatic R mn mx T then .fault .illFormed
      else if inclStatic R mn mx T then .ret t
      else match p.ae with
        | .trap => .fault .illFormed
        | .throw => if mn ≤ t ∧ t ≤ mx then .ret t else .thrown (boundErr R mn mx T.base t)
        | .ignore => if mn ≤ t ∧ t ≤ mx then .ret t else .fault .ub
        | .user f => if mn ≤ t ∧ t ≤ mx then .ret t else
            if f.contains (boundErr R mn mx T.base t) then .fault .ub else .thrown (boundErr R mn mx T.base t) := by
  unfold validate
  rw [castItv_eq hT, Out.ret_bind, traps_cast, cast_bound (hT.has_in ht) hmn hmx]
  show (if exclStatic R mn mx T = true then _ else if inclStatic R mn mx T = true then _ else _) = _
  by_cases h1 : exclStatic R mn mx T = true
  · rw [if_pos h1, if_pos h1]
  · rw [if_neg h1, if_neg h1]
    by_cases h2 : inclStatic R mn mx T = true
    · rw [if_pos h2, if_pos h2]
      have := inclStatic_sound hmn hmx h2
      have := ht.1; have := ht.2
      rw [conv_of_in]
      exact ⟨by have := hmn.1; omega, by have := hmx.2; omega⟩
    · rw [if_neg h2, if_neg h2]
      cases hp : p.ae with
      | trap => simp
      | throw =>
        simp only [reduceCtorEq, decide_false, Bool.false_eq_true, if_false]
        split_ifs with g
        · rfl
        · rw [handler_throw hp boundErr_arith]; rfl
      | ignore =>
        simp only [reduceCtorEq, decide_false, Bool.false_eq_true, if_false]
        split_ifs with g
        · rfl
        · rw [handler_ignore hp boundErr_arith]; rfl
      | user f =>
        simp only [reduceCtorEq, decide_false, Bool.false_eq_true, if_false]
        split_ifs with g g2
        · rfl
        · rw [handler_user hp boundErr_arith, if_pos g2]; rfl
        · rw [handler_user hp boundErr_arith, if_neg g2]; rfl

/-! ### operand conversion -/

theorem castOne_throw {p : EP} (hp : p.ae = .throw) {R : ITy} {T : Opd} {t : Int} (hT : T.Wf) (ht : T.Has t) :
    castOne p R T t = orThrow (castTo R t) := by
  unfold castOne
  rw [cast_full (hT.has_in ht)]
  rcases hc : castTo R t with v | e
  · rfl
  · show (dispatchAndReturn p e >>= _) = _
    rw [handler_throw hp (castTo_arith hc)]; rfl

/-- the compile time requirement of the operand conversions -/
def litOk (R : ITy) (T : Opd) : Bool := decide (litCheck R T = .ret ())

theorem litCheck_eq {R : ITy} {T : Opd} (hT : T.Wf) :
    litCheck R T = if litOk R T then .ret () else .fault .illFormed := by
  have key : litCheck R T = .ret () ∨ litCheck R T = .fault .illFormed := by
    unfold litCheck
    split
    · rw [castItv_eq hT, Out.ret_bind]
      dsimp only
      split_ifs <;> simp
    · exact Or.inl rfl
  unfold litOk
  rcases key with h | h <;> rw [h] <;> simp

theorem litOk_not_lit {R : ITy} {T : Opd} (h : ∀ b, T.kind ≠ .lit b) : litOk R T = true := by
  unfold litOk litCheck
  split
  · rename_i b hb; exact absurd hb (h b)
  · simp

/-- a literal whose value is in `R` can be converted -/
theorem litOk_in {R : ITy} {T : Opd} (hT : T.Wf) (h1 : R.In T.lo) (h2 : R.In T.hi) : litOk R T = true := by
  have hi := inclStatic_complete (T := T) R.in_min R.in_max hT.2.2.2.1 ⟨h1.1, h2.2⟩
  have he : ¬ exclStatic R R.min R.max T = true := by
    intro h
    have := exclStatic_sound R.in_min R.in_max h
    have := h1.1; have := h1.2; have := h2.1; omega
  apply decide_eq_true
  unfold litCheck
  split
  · rw [castItv_eq hT, Out.ret_bind]
    unfold inclStatic at hi; unfold exclStatic at he
    dsimp only
    rw [if_neg he, hi]; simp
  · simp

theorem castStatic_eq {p : EP} {R : ITy} {T : Opd} (hT : T.Wf) :
    castStatic p R T = if litOk R T = true ∧ p.ae ≠ .trap then .ret () else .fault .illFormed := by
  unfold castStatic
  rw [litCheck_eq hT, traps_cast]
  by_cases h1 : litOk R T = true <;> by_cases h2 : p.ae = .trap <;> simp [h1, h2]

theorem castingHelper_throw {p : EP} (hp : p.ae = .throw) {R : ITy} {T U : Opd} {t u : Int} (hT : T.Wf)
    (ht : T.Has t) (hU : U.Wf) (hu : U.Has u) (lT : litOk R T = true) (lU : litOk R U = true) :
    castingHelper p R T U t u = (do
      let a ← orThrow (castTo R t)
      let b ← orThrow (castTo R u)
      .ret (a, b)) := by
  have h : p.ae ≠ .trap := by rw [hp]; decide
  unfold castingHelper
  rw [castStatic_eq hT, castStatic_eq hU, castOne_throw hp hT ht, castOne_throw hp hU hu, lT, lU]
  simp [h]

/-! ### the common shape of `+`, `-`, `*` -/

/-- the operator computes `f`, exactly or with an overflow error -/
structure Computes (op : ArithOp) (R : ITy) (f : Int → Int → Int) : Prop where
  errs : op.errs = [.positive_overflow_error, .negative_overflow_error]
  chk : ∀ (h : Handler) (t u : Int), R.In t → R.In u → op.chk R h t u =
    match exactOr R.min R.max (f t u) with | .ok v => .ret (.ok v) | .err e => h e
  prim : ∀ t u : Int, R.In t → R.In u → R.In (f t u) → op.prim R R t u = .ret (f t u)

omit [Arch] in
theorem match_exactOr {lo hi v : Int} {h : Handler} :
    (match exactOr lo hi v with | .ok v => Out.ret (CR.ok v) | .err e => h e) =
      if hi < v then h .positive_overflow_error else if v < lo then h .negative_overflow_error
      else .ret (.ok v) := by
  unfold exactOr; split_ifs <;> rfl

theorem computes_add (R : ITy) : Computes opAdd R (· + ·) where
  errs := rfl
  chk h t u ht hu := by rw [match_exactOr]; exact add_eq ht hu
  prim t u ht hu hr := cAdd_eq (in_uac_self ht) (in_uac_self hu) (in_uac_self hr)

theorem computes_sub (R : ITy) : Computes opSub R (· - ·) where
  errs := rfl
  chk h t u ht hu := by rw [match_exactOr]; exact subtract_eq ht hu
  prim t u ht hu hr := cSub_eq (in_uac_self ht) (in_uac_self hu) (in_uac_self hr)

theorem computes_mul {R : ITy} (hR : R.Ok) : Computes opMul R (· * ·) where
  errs := rfl
  chk h t u ht hu := by rw [match_exactOr]; exact multiply_eq hR ht hu
  prim t u ht hu hr := cMul_eq (in_uac_self ht) (in_uac_self hu) (in_uac_self hr)

theorem runChecked_throw {op : ArithOp} {R : ITy} {f : Int → Int → Int} (hop : Computes op R f) {p : EP}
    (hp : p.ae = .throw) {T U : Opd} {t u : Int} (hT : T.Wf) (ht : T.Has t) (hU : U.Wf) (hu : U.Has u) :
    runChecked op p R T U t u =
      if litOk R T = true ∧ litOk R U = true then exactIn R t u (f t u) else .fault .illFormed := by
  have h : p.ae ≠ .trap := by rw [hp]; decide
  unfold runChecked
  rw [castStatic_eq hT, castStatic_eq hU, hop.errs, traps_arith]
  by_cases lT : litOk R T = true
  · by_cases lU : litOk R U = true
    · rw [castingHelper_throw hp hT ht hU hu lT lU]
      simp only [lT, lU, h, ne_eq, not_false_eq_true, and_self, if_true, Out.ret_bind, decide_false,
        Bool.false_eq_true, if_false]
      unfold exactIn
      rcases ct : castTo R t with a | e
      · obtain ⟨rfl, hti⟩ := castTo_ok ct
        rcases cu : castTo R u with b | e
        · obtain ⟨rfl, hui⟩ := castTo_ok cu
          simp only [orThrow, Out.ret_bind]
          rw [hop.chk _ _ _ hti hui]
          rcases cv : exactOr R.min R.max (f a b) with v | e
          · rfl
          · show (dispatchAndReturn p e >>= _) = _
            rw [handler_throw hp (exactOr_arith cv)]; rfl
        · rfl
      · rfl
    · simp [lT, lU, h]
  · simp [lT]

theorem runChecked_trap {op : ArithOp} {R : ITy} {p : EP}
    (hp : p.ae = .trap) {T U : Opd} {t u : Int} (hT : T.Wf) :
    runChecked op p R T U t u = .fault .illFormed := by
  unfold runChecked
  rw [castStatic_eq hT]
  simp [hp]

omit [Arch] in
theorem exactIn_of_in {R : ITy} {t u v : Int} (ht : R.In t) (hu : R.In u) (hv : R.In v) :
    exactIn R t u v = .ret v := by
  unfold exactIn
  rw [castTo_of_in ht, castTo_of_in hu, exactOr_of_in hv.1 hv.2]; rfl

omit [Arch] in
theorem runPlain_eq {op : ArithOp} {R : ITy} {f : Int → Int → Int} (hop : Computes op R f) {t u : Int}
    (ht : R.In t) (hu : R.In u) (hr : R.In (f t u)) : runPlain op R t u = .ret (f t u) := by
  unfold runPlain
  rw [conv_of_in ht, conv_of_in hu, hop.prim t u ht hu hr, Out.ret_bind, conv_of_in hr]

/-- no exception possible: both ends of the result interval are values -/
theorem excPossible_false {R : ITy} {ri : Itv CR} (h : excPossible R ri = false) (pl : Proper R ri.l)
    (pu : Proper R ri.u) : (∃ v, ri.l = .ok v ∧ R.In v) ∧ (∃ v, ri.u = .ok v ∧ R.In v) := by
  unfold excPossible at h
  simp only [Bool.or_eq_false_iff] at h
  obtain ⟨⟨h1, h2⟩, _⟩ := h
  constructor
  · rcases e : ri.l with v | e'
    · rw [e] at pl; exact ⟨v, rfl, pl⟩
    · rw [e] at h1 pl
      have pl : e' ≠ .success := pl
      simp [CR.exception, pl] at h1
  · rcases e : ri.u with v | e'
    · rw [e] at pu; exact ⟨v, rfl, pu⟩
    · rw [e] at h2 pu
      have pu : e' ≠ .success := pu
      simp [CR.exception, pu] at h2

/-- two value ends: no exception possible -/
theorem excPossible_values {R : ITy} {a b : Int} (ha : R.In a) (hb : R.In b) :
    excPossible R ⟨.ok a, .ok b⟩ = false := by
  unfold excPossible retItv endOr
  show (false || false || (((T3.ofBool (cGe R R b b)).and (T3.ofBool (cLe R R a a))).not).toBool) = false
  rw [cGe_eq (in_uac_self hb) (in_uac_self hb), cLe_eq (in_uac_self ha) (in_uac_self ha)]
  simp [T3.ofBool, T3.and, T3.not, T3.toBool]

theorem crAdd_total {R : ITy} {c d : CR} (pc : Proper R c) (pd : Proper R d) :
    ∃ e, crAdd R c d = .ret e ∧ Proper R e ∧
      (∀ v, e = .ok v → ∃ a b, c = .ok a ∧ d = .ok b ∧ v = a + b) := by
  rcases c.cases4 with ⟨a, rfl⟩ | rfl | rfl | hv
  · rcases d.cases4 with ⟨b, rfl⟩ | rfl | rfl | hv
    · refine ⟨_, crAdd_ok pc pd, proper_exactOr _, fun v h => ⟨a, b, rfl, rfl, ?_⟩⟩
      unfold exactOr at h; split_ifs at h; simpa using h.symm
    · exact ⟨_, rfl, proper_neg R, by simp⟩
    · exact ⟨_, rfl, proper_pos R, by simp⟩
    · exact ⟨_, crAdd_vague (Or.inr hv), proper_range R, by simp⟩
  · rcases d.cases4 with ⟨b, rfl⟩ | rfl | rfl | hv
    · exact ⟨_, rfl, proper_neg R, by simp⟩
    · exact ⟨_, rfl, proper_neg R, by simp⟩
    · exact ⟨_, rfl, proper_range R, by simp⟩
    · exact ⟨_, crAdd_vague (Or.inr hv), proper_range R, by simp⟩
  · rcases d.cases4 with ⟨b, rfl⟩ | rfl | rfl | hv
    · exact ⟨_, rfl, proper_pos R, by simp⟩
    · exact ⟨_, rfl, proper_range R, by simp⟩
    · exact ⟨_, rfl, proper_pos R, by simp⟩
    · exact ⟨_, crAdd_vague (Or.inr hv), proper_range R, by simp⟩
  · exact ⟨_, crAdd_vague (Or.inl hv), proper_range R, by simp⟩

theorem crSub_total {R : ITy} {c d : CR} (pc : Proper R c) (pd : Proper R d) :
    ∃ e, crSub R c d = .ret e ∧ Proper R e ∧
      (∀ v, e = .ok v → ∃ a b, c = .ok a ∧ d = .ok b ∧ v = a - b) := by
  rcases c.cases4 with ⟨a, rfl⟩ | rfl | rfl | hv
  · rcases d.cases4 with ⟨b, rfl⟩ | rfl | rfl | hv
    · refine ⟨_, crSub_ok pc pd, proper_exactOr _, fun v h => ⟨a, b, rfl, rfl, ?_⟩⟩
      unfold exactOr at h; split_ifs at h; simpa using h.symm
    · exact ⟨_, rfl, proper_pos R, by simp⟩
    · exact ⟨_, rfl, proper_neg R, by simp⟩
    · exact ⟨_, crSub_vague (Or.inr hv), proper_range R, by simp⟩
  · rcases d.cases4 with ⟨b, rfl⟩ | rfl | rfl | hv
    · exact ⟨_, rfl, proper_neg R, by simp⟩
    · exact ⟨_, rfl, proper_range R, by simp⟩
    · exact ⟨_, rfl, proper_neg R, by simp⟩
    · exact ⟨_, crSub_vague (Or.inr hv), proper_range R, by simp⟩
  · rcases d.cases4 with ⟨b, rfl⟩ | rfl | rfl | hv
    · exact ⟨_, rfl, proper_pos R, by simp⟩
    · exact ⟨_, rfl, proper_pos R, by simp⟩
    · exact ⟨_, rfl, proper_range R, by simp⟩
    · exact ⟨_, crSub_vague (Or.inr hv), proper_range R, by simp⟩
  · exact ⟨_, crSub_vague (Or.inl hv), proper_range R, by simp⟩

theorem crMul_total {R : ITy} (hR : R.Ok) {c d : CR} (pc : Proper R c) (pd : Proper R d) :
    ∃ e, crMul R c d = .ret e ∧ Proper R e ∧ ((Vague c ∨ Vague d) → Vague e) ∧
      (¬ (Vague c ∨ Vague d) → ¬ Vague e) ∧
      (∀ v, e = .ok v → (∃ a b, c = .ok a ∧ d = .ok b ∧ v = a * b) ∨ (c = .ok 0 ∧ v = 0) ∨ (d = .ok 0 ∧ v = 0)) := by
  have vr : Vague (.err .range_error) := ⟨_, rfl, by decide, by decide⟩
  rcases c.cases4 with ⟨a, rfl⟩ | rfl | rfl | hv
  · rcases d.cases4 with ⟨b, rfl⟩ | rfl | rfl | hv
    · refine ⟨_, crMul_ok hR pc pd, proper_exactOr _, ?_, fun _ => not_vague_exactOr, fun v h => Or.inl ⟨a, b, rfl, rfl, ?_⟩⟩
      · rintro (h | h) <;> exact absurd h (not_vague_ok _)
      · unfold exactOr at h; split_ifs at h; simpa using h.symm
    · refine ⟨_, crMul_ok_neg pc, ?_⟩
      split_ifs with h1 h2
      · exact ⟨proper_pos R, fun h => (h.elim (not_vague_ok _) not_vague_neg).elim, fun _ => not_vague_pos, by simp⟩
      · exact ⟨proper_neg R, fun h => (h.elim (not_vague_ok _) not_vague_neg).elim, fun _ => not_vague_neg, by simp⟩
      · obtain rfl : a = 0 := by omega
        exact ⟨R.in_zero, fun h => (h.elim (not_vague_ok _) not_vague_neg).elim, fun _ => not_vague_ok _,
          fun v h => Or.inr (Or.inl ⟨rfl, by simpa using h.symm⟩)⟩
    · refine ⟨_, crMul_ok_pos pc, ?_⟩
      split_ifs with h1 h2
      · exact ⟨proper_neg R, fun h => (h.elim (not_vague_ok _) not_vague_pos).elim, fun _ => not_vague_neg, by simp⟩
      · exact ⟨proper_pos R, fun h => (h.elim (not_vague_ok _) not_vague_pos).elim, fun _ => not_vague_pos, by simp⟩
      · obtain rfl : a = 0 := by omega
        exact ⟨R.in_zero, fun h => (h.elim (not_vague_ok _) not_vague_pos).elim, fun _ => not_vague_ok _,
          fun v h => Or.inr (Or.inl ⟨rfl, by simpa using h.symm⟩)⟩
    · exact ⟨_, crMul_vague (Or.inr hv), proper_range R, fun _ => vr, fun h => absurd (Or.inr hv) h, by simp⟩
  · rcases d.cases4 with ⟨b, rfl⟩ | rfl | rfl | hv
    · refine ⟨_, crMul_neg_ok pd, ?_⟩
      split_ifs with h1 h2
      · exact ⟨proper_pos R, fun h => (h.elim not_vague_neg (not_vague_ok _)).elim, fun _ => not_vague_pos, by simp⟩
      · exact ⟨proper_neg R, fun h => (h.elim not_vague_neg (not_vague_ok _)).elim, fun _ => not_vague_neg, by simp⟩
      · obtain rfl : b = 0 := by omega
        exact ⟨R.in_zero, fun h => (h.elim not_vague_neg (not_vague_ok _)).elim, fun _ => not_vague_ok _,
          fun v h => Or.inr (Or.inr ⟨rfl, by simpa using h.symm⟩)⟩
    · exact ⟨_, rfl, proper_pos R, fun h => (h.elim not_vague_neg not_vague_neg).elim, fun _ => not_vague_pos, by simp⟩
    · exact ⟨_, rfl, proper_neg R, fun h => (h.elim not_vague_neg not_vague_pos).elim, fun _ => not_vague_neg, by simp⟩
    · exact ⟨_, crMul_vague (Or.inr hv), proper_range R, fun _ => vr, fun h => absurd (Or.inr hv) h, by simp⟩
  · rcases d.cases4 with ⟨b, rfl⟩ | rfl | rfl | hv
    · refine ⟨_, crMul_pos_ok pd, ?_⟩
      split_ifs with h1 h2
      · exact ⟨proper_neg R, fun h => (h.elim not_vague_pos (not_vague_ok _)).elim, fun _ => not_vague_neg, by simp⟩
      · exact ⟨proper_pos R, fun h => (h.elim not_vague_pos (not_vague_ok _)).elim, fun _ => not_vague_pos, by simp⟩
      · obtain rfl : b = 0 := by omega
        exact ⟨R.in_zero, fun h => (h.elim not_vague_pos (not_vague_ok _)).elim, fun _ => not_vague_ok _,
          fun v h => Or.inr (Or.inr ⟨rfl, by simpa using h.symm⟩)⟩
    · exact ⟨_, rfl, proper_neg R, fun h => (h.elim not_vague_pos not_vague_neg).elim, fun _ => not_vague_neg, by simp⟩
    · exact ⟨_, rfl, proper_pos R, fun h => (h.elim not_vague_pos not_vague_pos).elim, fun _ => not_vague_pos, by simp⟩
    · exact ⟨_, crMul_vague (Or.inr hv), proper_range R, fun _ => vr, fun h => absurd (Or.inr hv) h, by simp⟩
  · exact ⟨_, crMul_vague (Or.inl hv), proper_range R, fun _ => vr, fun h => absurd (Or.inl hv) h, by simp⟩

omit [Arch] in
theorem static_ret {α : Type} {x : Out α} {a : α} (h : x = .ret a) : Out.static x = .ret a := by rw [h]; rfl

/-- the result interval of `+` exists; if both its ends are values then all operand ends are in `R` -/
theorem resItv_add {R : ITy} {T U : Opd} (hT : T.Wf) (hU : U.Wf) :
    ∃ ri, resItv itvAdd R T U = .ret ri ∧ Proper R ri.l ∧ Proper R ri.u ∧
      ((∃ v, ri.l = .ok v) → (∃ v, ri.u = .ok v) →
        R.In T.lo ∧ R.In T.hi ∧ R.In U.lo ∧ R.In U.hi ∧ R.In (T.lo + U.lo) ∧ R.In (T.hi + U.hi) ∧
        ri = ⟨.ok (T.lo + U.lo), .ok (T.hi + U.hi)⟩) := by
  obtain ⟨a, e1, p1, f1⟩ := crAdd_total (R := R) (castTo_proper (x := T.lo)) (castTo_proper (x := U.lo))
  obtain ⟨b, e2, p2, f2⟩ := crAdd_total (R := R) (castTo_proper (x := T.hi)) (castTo_proper (x := U.hi))
  refine ⟨⟨a, b⟩, ?_, p1, p2, ?_⟩
  · apply static_ret
    rw [castItv_eq hT, castItv_eq hU]
    simp only [Out.ret_bind, itvAdd, e1, e2]
  · rintro ⟨v, hv⟩ ⟨w, hw⟩
    obtain rfl : a = .ok v := hv
    obtain rfl : b = .ok w := hw
    obtain ⟨x1, y1, g1, g2, rfl⟩ := f1 v rfl
    obtain ⟨x2, y2, g3, g4, rfl⟩ := f2 w rfl
    obtain ⟨rfl, i1⟩ := castTo_ok g1
    obtain ⟨rfl, i2⟩ := castTo_ok g2
    obtain ⟨rfl, i3⟩ := castTo_ok g3
    obtain ⟨rfl, i4⟩ := castTo_ok g4
    exact ⟨i1, i3, i2, i4, p1, p2, rfl⟩

theorem resItv_sub {R : ITy} {T U : Opd} (hT : T.Wf) (hU : U.Wf) :
    ∃ ri, resItv itvSub R T U = .ret ri ∧ Proper R ri.l ∧ Proper R ri.u ∧
      ((∃ v, ri.l = .ok v) → (∃ v, ri.u = .ok v) →
        R.In T.lo ∧ R.In T.hi ∧ R.In U.lo ∧ R.In U.hi ∧ R.In (T.lo - U.hi) ∧ R.In (T.hi - U.lo) ∧
        ri = ⟨.ok (T.lo - U.hi), .ok (T.hi - U.lo)⟩) := by
  obtain ⟨a, e1, p1, f1⟩ := crSub_total (R := R) (castTo_proper (x := T.lo)) (castTo_proper (x := U.hi))
  obtain ⟨b, e2, p2, f2⟩ := crSub_total (R := R) (castTo_proper (x := T.hi)) (castTo_proper (x := U.lo))
  refine ⟨⟨a, b⟩, ?_, p1, p2, ?_⟩
  · apply static_ret
    rw [castItv_eq hT, castItv_eq hU]
    simp only [Out.ret_bind, itvSub, e1, e2]
  · rintro ⟨v, hv⟩ ⟨w, hw⟩
    obtain rfl : a = .ok v := hv
    obtain rfl : b = .ok w := hw
    obtain ⟨x1, y1, g1, g2, rfl⟩ := f1 v rfl
    obtain ⟨x2, y2, g3, g4, rfl⟩ := f2 w rfl
    obtain ⟨rfl, i1⟩ := castTo_ok g1
    obtain ⟨rfl, i2⟩ := castTo_ok g2
    obtain ⟨rfl, i3⟩ := castTo_ok g3
    obtain ⟨rfl, i4⟩ := castTo_ok g4
    exact ⟨i1, i3, i4, i2, p1, p2, rfl⟩

/-- corners of a product interval whose ends are both values -/
theorem resItv_mul {R : ITy} (hR : R.Ok) {T U : Opd} (hT : T.Wf) (hU : U.Wf) :
    ∃ ri, resItv itvMul R T U = .ret ri ∧ Proper R ri.l ∧ Proper R ri.u ∧
      (∀ v w, ri.l = .ok v → ri.u = .ok w →
        (R.In T.lo ∧ R.In T.hi ∧ R.In U.lo ∧ R.In U.hi ∧
          ∀ x y, T.Has x → U.Has y → v ≤ x * y ∧ x * y ≤ w) ∨
        (v ≤ 0 ∧ 0 ≤ w ∧ ((T.lo = 0 ∧ T.hi = 0) ∨ (U.lo = 0 ∧ U.hi = 0)))) := by
  have hz := R.min_nonpos; have hm := R.max_ge
  obtain ⟨c1, e1, p1, g1, n1, f1⟩ := crMul_total hR (castTo_proper (x := T.lo)) (castTo_proper (x := U.lo))
  obtain ⟨c2, e2, p2, g2, n2, f2⟩ := crMul_total hR (castTo_proper (x := T.lo)) (castTo_proper (x := U.hi))
  obtain ⟨c3, e3, p3, g3, n3, f3⟩ := crMul_total hR (castTo_proper (x := T.hi)) (castTo_proper (x := U.lo))
  obtain ⟨c4, e4, p4, g4, n4, f4⟩ := crMul_total hR (castTo_proper (x := T.hi)) (castTo_proper (x := U.hi))
  have hp : ∀ c ∈ [c1, c2, c3, c4], Proper R c := by
    intro c hc; simp at hc; rcases hc with rfl | rfl | rfl | rfl <;> assumption
  obtain ⟨m, M, e, hmem, hMem, hh⟩ := minmax_cr c1 [c2, c3, c4] hp
  refine ⟨⟨m, M⟩, ?_, hp m hmem, hp M hMem, ?_⟩
  · apply static_ret
    rw [castItv_eq hT, castItv_eq hU]
    simp only [Out.ret_bind, itvMul, corners, minmax4, e1, e2, e3, e4, e]
  · intro v w hv hw
    obtain rfl : m = .ok v := hv
    obtain rfl : M = .ok w := hw
    have pv : R.In v := hp _ hmem
    have pw : R.In w := hp _ hMem
    rcases hh with ⟨va, h, _⟩ | ⟨va, _, _, hh⟩
    · rw [← h] at va; exact absurd va (not_vague_ok _)
    · have hTl := hT.2.2.2.1; have hUl := hU.2.2.2.1
      have vTl : ¬ Vague (castTo R T.lo) := fun h => va (g1 (Or.inl h))
      have vUl : ¬ Vague (castTo R U.lo) := fun h => va (g1 (Or.inr h))
      have vTh : ¬ Vague (castTo R T.hi) := fun h => vTl (castTo_vague.2 ⟨(castTo_vague.1 h).1, by have := (castTo_vague.1 h).2; omega⟩)
      have vUh : ¬ Vague (castTo R U.hi) := fun h => vUl (castTo_vague.2 ⟨(castTo_vague.1 h).1, by have := (castTo_vague.1 h).2; omega⟩)
      have val : ∀ c ∈ [c1, c2, c3, c4], ¬ Vague c → ∃ z, c = .ok z ∧ v ≤ z ∧ z ≤ w := by
        intro c hc hvc
        have := hh c hc hvc
        simp only [CR.key] at this
        have h1 := pv.1; have h2 := pw.2
        rcases c.cases4 with ⟨z, rfl⟩ | rfl | rfl | hv
        · exact ⟨z, rfl, this⟩
        · dsimp only at this; omega
        · dsimp only at this; omega
        · exact absurd hv hvc
      obtain ⟨z1, rfl, b1⟩ := val c1 (by simp) (n1 (by simp [vTl, vUl]))
      obtain ⟨z2, rfl, b2⟩ := val c2 (by simp) (n2 (by simp [vTl, vUh]))
      obtain ⟨z3, rfl, b3⟩ := val c3 (by simp) (n3 (by simp [vTh, vUl]))
      obtain ⟨z4, rfl, b4⟩ := val c4 (by simp) (n4 (by simp [vTh, vUh]))
      have zero : ∀ {x : Int}, castTo R x = .ok 0 → x = 0 := fun h => (castTo_ok h).1.symm
      have split : ∀ {x y z : Int}, ((∃ a b, castTo R x = .ok a ∧ castTo R y = .ok b ∧ z = a * b) ∨
          (castTo R x = .ok 0 ∧ z = 0) ∨ (castTo R y = .ok 0 ∧ z = 0)) →
          (R.In x ∧ R.In y ∧ z = x * y) ∨ (x = 0 ∧ z = 0) ∨ (y = 0 ∧ z = 0) := by
        rintro x y z (⟨a, b, h1, h2, rfl⟩ | ⟨h1, h2⟩ | ⟨h1, h2⟩)
        · obtain ⟨rfl, i1⟩ := castTo_ok h1
          obtain ⟨rfl, i2⟩ := castTo_ok h2
          exact Or.inl ⟨i1, i2, rfl⟩
        · exact Or.inr (Or.inl ⟨zero h1, h2⟩)
        · exact Or.inr (Or.inr ⟨zero h1, h2⟩)
      have s1 := split (f1 _ rfl); have s2 := split (f2 _ rfl)
      have s3 := split (f3 _ rfl); have s4 := split (f4 _ rfl)
      have prod : z1 = T.lo * U.lo ∧ z2 = T.lo * U.hi ∧ z3 = T.hi * U.lo ∧ z4 = T.hi * U.hi := by
        have k : ∀ {x y z : Int}, (R.In x ∧ R.In y ∧ z = x * y) ∨ (x = 0 ∧ z = 0) ∨ (y = 0 ∧ z = 0) → z = x * y := by
          rintro x y z (⟨_, _, h⟩ | ⟨rfl, rfl⟩ | ⟨rfl, rfl⟩)
          · exact h
          · simp
          · simp
        exact ⟨k s1, k s2, k s3, k s4⟩
      by_cases a1 : R.In T.lo ∧ R.In T.hi
      · by_cases a2 : R.In U.lo ∧ R.In U.hi
        · left
          refine ⟨a1.1, a1.2, a2.1, a2.2, fun x y hx hy => ?_⟩
          obtain ⟨q1, q2, q3, q4⟩ := prod
          exact ⟨corner_lower hx.1 hx.2 hy.1 hy.2 (by omega) (by omega) (by omega) (by omega),
            corner_upper hx.1 hx.2 hy.1 hy.2 (by omega) (by omega) (by omega) (by omega)⟩
        · right
          have t0 : T.lo = 0 ∧ T.hi = 0 := by
            by_cases b1 : R.In U.lo
            · have b2 : ¬ R.In U.hi := fun h => a2 ⟨b1, h⟩
              have nz : U.hi ≠ 0 := fun h => b2 (h ▸ R.in_zero)
              refine ⟨?_, ?_⟩
              · rcases s2 with h | h | h
                · exact absurd h.2.1 b2
                · exact h.1
                · exact absurd h.1 nz
              · rcases s4 with h | h | h
                · exact absurd h.2.1 b2
                · exact h.1
                · exact absurd h.1 nz
            · have nz : U.lo ≠ 0 := fun h => b1 (h ▸ R.in_zero)
              refine ⟨?_, ?_⟩
              · rcases s1 with h | h | h
                · exact absurd h.2.1 b1
                · exact h.1
                · exact absurd h.1 nz
              · rcases s3 with h | h | h
                · exact absurd h.2.1 b1
                · exact h.1
                · exact absurd h.1 nz
          have : z1 = 0 := by rw [prod.1, t0.1]; simp
          exact ⟨by omega, by omega, Or.inl t0⟩
      · right
        have t0 : U.lo = 0 ∧ U.hi = 0 := by
          by_cases b1 : R.In T.lo
          · have b2 : ¬ R.In T.hi := fun h => a1 ⟨b1, h⟩
            have nz : T.hi ≠ 0 := fun h => b2 (h ▸ R.in_zero)
            refine ⟨?_, ?_⟩
            · rcases s3 with h | h | h
              · exact absurd h.1 b2
              · exact absurd h.1 nz
              · exact h.1
            · rcases s4 with h | h | h
              · exact absurd h.1 b2
              · exact absurd h.1 nz
              · exact h.1
          · have nz : T.lo ≠ 0 := fun h => b1 (h ▸ R.in_zero)
            refine ⟨?_, ?_⟩
            · rcases s1 with h | h | h
              · exact absurd h.1 b1
              · exact absurd h.1 nz
              · exact h.1
            · rcases s2 with h | h | h
              · exact absurd h.1 b1
              · exact absurd h.1 nz
              · exact h.1
        have : z1 = 0 := by rw [prod.1, t0.1]; simp
        exact ⟨by omega, by omega, Or.inr t0⟩

/-! ### closed forms of `+`, `-`, `*` -/

/-- does the compiler decide that no exception is possible? -/
def staticExc (op : ArithOp) (R : ITy) (T U : Opd) : Bool :=
  match resItv op.itv R T U with
  | .ret ri => excPossible R ri
  | _ => true

theorem runOp_cases {op : ArithOp} {p : EP} {R : ITy} {T U : Opd} {ri : Itv CR} (h : resItv op.itv R T U = .ret ri)
    (t u : Int) :
    runOp op p R T U t u =
      if staticExc op R T U then runChecked op p R T U t u else runPlain op R t u := by
  unfold runOp staticExc; rw [h]; rfl

/-- `+`: what holds when no exception is possible -/
theorem add_static {R : ITy} {T U : Opd} (hT : T.Wf) (hU : U.Wf) (h : staticExc opAdd R T U = false) {t u : Int}
    (ht : T.Has t) (hu : U.Has u) : R.In t ∧ R.In u ∧ R.In (t + u) := by
  obtain ⟨ri, e, p1, p2, f⟩ := resItv_add (R := R) hT hU
  have h' : excPossible R ri = false := by
    unfold staticExc at h; rw [show resItv opAdd.itv R T U = .ret ri from e] at h; exact h
  obtain ⟨⟨v, hv, _⟩, ⟨w, hw, _⟩⟩ := excPossible_false h' p1 p2
  obtain ⟨i1, i2, i3, i4, i5, i6, _⟩ := f ⟨v, hv⟩ ⟨w, hw⟩
  have := ht.1; have := ht.2; have := hu.1; have := hu.2
  refine ⟨⟨?_, ?_⟩, ⟨?_, ?_⟩, ⟨?_, ?_⟩⟩
  · have := i1.1; omega
  · have := i2.2; omega
  · have := i3.1; omega
  · have := i4.2; omega
  · have := i5.1; omega
  · have := i6.2; omega

theorem sub_static {R : ITy} {T U : Opd} (hT : T.Wf) (hU : U.Wf) (h : staticExc opSub R T U = false) {t u : Int}
    (ht : T.Has t) (hu : U.Has u) : R.In t ∧ R.In u ∧ R.In (t - u) := by
  obtain ⟨ri, e, p1, p2, f⟩ := resItv_sub (R := R) hT hU
  have h' : excPossible R ri = false := by
    unfold staticExc at h; rw [show resItv opSub.itv R T U = .ret ri from e] at h; exact h
  obtain ⟨⟨v, hv, _⟩, ⟨w, hw, _⟩⟩ := excPossible_false h' p1 p2
  obtain ⟨i1, i2, i3, i4, i5, i6, _⟩ := f ⟨v, hv⟩ ⟨w, hw⟩
  have := ht.1; have := ht.2; have := hu.1; have := hu.2
  refine ⟨⟨?_, ?_⟩, ⟨?_, ?_⟩, ⟨?_, ?_⟩⟩
  · have := i1.1; omega
  · have := i2.2; omega
  · have := i3.1; omega
  · have := i4.2; omega
  · have := i5.1; omega
  · have := i6.2; omega

/-- a range that is the constant zero -/
def ZeroRange (T : Opd) : Prop := T.lo = 0 ∧ T.hi = 0

theorem mul_static {R : ITy} (hR : R.Ok) {T U : Opd} (hT : T.Wf) (hU : U.Wf) (h : staticExc opMul R T U = false)
    {t u : Int} (ht : T.Has t) (hu : U.Has u) :
    (R.In t ∧ R.In u ∧ R.In (t * u)) ∨ ZeroRange T ∨ ZeroRange U := by
  obtain ⟨ri, e, p1, p2, f⟩ := resItv_mul hR hT hU
  have h' : excPossible R ri = false := by
    unfold staticExc at h; rw [show resItv opMul.itv R T U = .ret ri from e] at h; exact h
  obtain ⟨⟨v, hv, iv⟩, ⟨w, hw, iw⟩⟩ := excPossible_false h' p1 p2
  rcases f v w hv hw with ⟨i1, i2, i3, i4, i5⟩ | ⟨_, _, i⟩
  · left
    have := ht.1; have := ht.2; have := hu.1; have := hu.2
    have i6 := i5 t u ht hu
    refine ⟨⟨?_, ?_⟩, ⟨?_, ?_⟩, ⟨?_, ?_⟩⟩
    · have := i1.1; omega
    · have := i2.2; omega
    · have := i3.1; omega
    · have := i4.2; omega
    · have := iv.1; omega
    · have := iw.2; omega
  · right; exact i

/-- operands whose literals can be converted -/
def LitsOk (R : ITy) (T U : Opd) : Prop := litOk R T = true ∧ litOk R U = true

instance (R : ITy) (T U : Opd) : Decidable (LitsOk R T U) := inferInstanceAs (Decidable (_ ∧ _))

theorem runAdd_throw {p : EP} (hp : p.ae = .throw) {R : ITy} {T U : Opd} {t u : Int} (hT : T.Wf) (hU : U.Wf)
    (ht : T.Has t) (hu : U.Has u) :
    runOp opAdd p R T U t u =
      if staticExc opAdd R T U = true ∧ ¬ LitsOk R T U then .fault .illFormed else exactIn R t u (t + u) := by
  obtain ⟨ri, e, _⟩ := resItv_add (R := R) hT hU
  rw [runOp_cases e, runChecked_throw (computes_add R) hp hT ht hU hu]
  by_cases h : staticExc opAdd R T U = true
  · by_cases l : LitsOk R T U
    · rw [if_pos h]; exact (if_pos l).trans (if_neg fun q => q.2 l).symm
    · rw [if_pos h]; exact (if_neg l).trans (if_pos ⟨h, l⟩).symm
  · obtain ⟨h1, h2, h3⟩ := add_static hT hU (by simpa using h) ht hu
    rw [if_neg h, if_neg fun q => h q.1, exactIn_of_in h1 h2 h3, runPlain_eq (computes_add R) h1 h2 h3]

theorem runSub_throw {p : EP} (hp : p.ae = .throw) {R : ITy} {T U : Opd} {t u : Int} (hT : T.Wf) (hU : U.Wf)
    (ht : T.Has t) (hu : U.Has u) :
    runOp opSub p R T U t u =
      if staticExc opSub R T U = true ∧ ¬ LitsOk R T U then .fault .illFormed else exactIn R t u (t - u) := by
  obtain ⟨ri, e, _⟩ := resItv_sub (R := R) hT hU
  rw [runOp_cases e, runChecked_throw (computes_sub R) hp hT ht hU hu]
  by_cases h : staticExc opSub R T U = true
  · by_cases l : LitsOk R T U
    · rw [if_pos h]; exact (if_pos l).trans (if_neg fun q => q.2 l).symm
    · rw [if_pos h]; exact (if_neg l).trans (if_pos ⟨h, l⟩).symm
  · obtain ⟨h1, h2, h3⟩ := sub_static hT hU (by simpa using h) ht hu
    rw [if_neg h, if_neg fun q => h q.1, exactIn_of_in h1 h2 h3, runPlain_eq (computes_sub R) h1 h2 h3]

/-- the product with a constant zero range, computed without checks -/
theorem runPlain_zero {R : ITy} {t u : Int} (h : t = 0 ∨ u = 0) : runPlain opMul R t u = .ret 0 := by
  unfold runPlain
  have c0 : conv R 0 = 0 := conv_of_in R.in_zero
  have : opMul.prim R R (conv R t) (conv R u) = .ret 0 := by
    have hz : conv R t * conv R u = 0 := by rcases h with rfl | rfl <;> simp [c0]
    have := cMul_eq (in_uac_self (conv_in R t)) (in_uac_self (conv_in R u))
      (show (uac R R).In (conv R t * conv R u) by rw [hz]; exact ITy.in_zero _)
    rw [hz] at this; exact this
  rw [this, Out.ret_bind, c0]

theorem runMul_throw {p : EP} (hp : p.ae = .throw) {R : ITy} (hR : R.Ok) {T U : Opd} {t u : Int} (hT : T.Wf)
    (hU : U.Wf) (ht : T.Has t) (hu : U.Has u) :
    runOp opMul p R T U t u =
      if staticExc opMul R T U = true then
        (if LitsOk R T U then exactIn R t u (t * u) else .fault .illFormed)
      else .ret (t * u) := by
  obtain ⟨ri, e, _⟩ := resItv_mul hR hT hU
  rw [runOp_cases e, runChecked_throw (computes_mul hR) hp hT ht hU hu]
  by_cases h : staticExc opMul R T U = true
  · rw [if_pos h, if_pos h]; rfl
  · rw [if_neg h, if_neg h]
    rcases mul_static hR hT hU (by simpa using h) ht hu with ⟨h1, h2, h3⟩ | ⟨h1, h2⟩ | ⟨h1, h2⟩
    · exact runPlain_eq (computes_mul hR) h1 h2 h3
    · have t0 : t = 0 := by have := ht.1; have := ht.2; omega
      rw [runPlain_zero (Or.inl t0), t0]; simp
    · have u0 : u = 0 := by have := hu.1; have := hu.2; omega
      rw [runPlain_zero (Or.inr u0), u0]; simp

/-- with a trapping policy: either it does not compile or the result is exact -/
theorem runAdd_trap {p : EP} (hp : p.ae = .trap) {R : ITy} {T U : Opd} {t u : Int} (hT : T.Wf) (hU : U.Wf)
    (ht : T.Has t) (hu : U.Has u) :
    runOp opAdd p R T U t u = if staticExc opAdd R T U then .fault .illFormed else .ret (t + u) := by
  obtain ⟨ri, e, _⟩ := resItv_add (R := R) hT hU
  rw [runOp_cases e, runChecked_trap hp hT]
  split_ifs with h
  · rfl
  · obtain ⟨h1, h2, h3⟩ := add_static hT hU (by simpa using h) ht hu
    exact runPlain_eq (computes_add R) h1 h2 h3

theorem runSub_trap {p : EP} (hp : p.ae = .trap) {R : ITy} {T U : Opd} {t u : Int} (hT : T.Wf) (hU : U.Wf)
    (ht : T.Has t) (hu : U.Has u) :
    runOp opSub p R T U t u = if staticExc opSub R T U then .fault .illFormed else .ret (t - u) := by
  obtain ⟨ri, e, _⟩ := resItv_sub (R := R) hT hU
  rw [runOp_cases e, runChecked_trap hp hT]
  split_ifs with h
  · rfl
  · obtain ⟨h1, h2, h3⟩ := sub_static hT hU (by simpa using h) ht hu
    exact runPlain_eq (computes_sub R) h1 h2 h3

theorem runMul_trap {p : EP} (hp : p.ae = .trap) {R : ITy} (hR : R.Ok) {T U : Opd} {t u : Int} (hT : T.Wf)
    (hU : U.Wf) (ht : T.Has t) (hu : U.Has u) :
    runOp opMul p R T U t u = if staticExc opMul R T U then .fault .illFormed else .ret (t * u) := by
  obtain ⟨ri, e, _⟩ := resItv_mul hR hT hU
  rw [runOp_cases e, runChecked_trap hp hT]
  split_ifs with h
  · rfl
  · rcases mul_static hR hT hU (by simpa using h) ht hu with ⟨h1, h2, h3⟩ | ⟨h1, h2⟩ | ⟨h1, h2⟩
    · exact runPlain_eq (computes_mul hR) h1 h2 h3
    · have t0 : t = 0 := by have := ht.1; have := ht.2; omega
      rw [runPlain_zero (Or.inl t0), t0]; simp
    · have u0 : u = 0 := by have := hu.1; have := hu.2; omega
      rw [runPlain_zero (Or.inr u0), u0]; simp

end
end Verif
