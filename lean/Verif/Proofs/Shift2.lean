import Verif.SafeSpec
import Verif.Proofs.Shift
import Verif.Proofs.Bounds

/-! Lemmas about the shift operators of safe types: right shift, run time part, promotion policies. -/

namespace Verif
open Spec
section
variable [Arch]

/-- the undefined case of `>>` -/
theorem crShr_bad {R : ITy} (hR : R.Ok) {a b : Int} (h : ShrBad R a b) :
    crShr R (castTo R a) (castTo R b) = .fault .ub ∨
    crShr R (castTo R a) (castTo R b) = .ret (.err .positive_overflow_error) := by
  obtain ⟨hs, hl, hb, ha⟩ := h
  have hk := ok_bits hR; have h8 := R.bits_pos
  have ib : R.In b := by
    refine ⟨by have := R.min_nonpos; omega, ?_⟩
    unfold ITy.max; rw [ITy.digits_unsigned hs]
    have : R.bits < 2 ^ R.bits := Nat.lt_two_pow_self
    zify at this; omega
  rw [castTo_of_in ib]
  rcases castTo_cases R a with ⟨ea, ia⟩ | ⟨ea, ia⟩ | ⟨ea, ia, sa⟩ | ⟨ea, sa, ia⟩ <;> rw [ea]
  · left
    unfold crShr crShift
    rw [prodFlag_gt ia ha, prodFlag_gt ib (by omega)]
    simp only [Bool.false_eq_true, if_false, shrTable, PFlag.row, crGt, crLt_toBool R.in_zero ia,
      crLt_toBool R.in_zero ib, ha, show 0 < b by omega, decide_true, assertThat, if_true, Out.ret_bind, CR.value]
    rw [rightShift_eq hR ia ib, if_neg (by omega), if_neg (by rw [ITy.digits_unsigned hs]; omega),
      if_neg (by omega), if_pos ⟨hs, hl, hb⟩]
    rfl
  · right
    unfold crShr crShift
    rw [prodFlag_pos, prodFlag_gt ib (by omega)]; rfl
  · rw [hs] at sa; cases sa
  · omega

/-- `>>` on converted operands is defined or the program does not compile -/
theorem crShr_total {R : ITy} (hR : R.Ok) (a b : Int) :
    (∃ f, crShr R (castTo R a) (castTo R b) = .fault f) ∨
    (∃ r, crShr R (castTo R a) (castTo R b) = .ret r ∧ Proper R r) := by
  by_cases h : ShrBad R a b
  · rcases crShr_bad hR h with h | h
    · exact Or.inl ⟨_, h⟩
    · exact Or.inr ⟨_, h, proper_pos R⟩
  · obtain ⟨r, e, p, _⟩ := crShr_val hR a b h
    exact Or.inr ⟨r, e, p⟩

omit [Arch] in
theorem static_fault {α : Type} {x : Out α} {f : Fault} (h : x = .fault f) : Out.static x = .fault .illFormed := by
  rw [h]; rfl

/-- when `>>` on intervals computes an interval, `>>` is defined at the corners -/
theorem itvShr_corners {R : ITy} (hR : R.Ok) (a b c d : Int) :
    (∃ f, itvShr R ⟨castTo R a, castTo R b⟩ ⟨castTo R c, castTo R d⟩ = .fault f) ∨
    (∃ c1 c2 c3 c4 ri, crShr R (castTo R a) (castTo R c) = .ret c1 ∧ crShr R (castTo R a) (castTo R d) = .ret c2 ∧
      crShr R (castTo R b) (castTo R c) = .ret c3 ∧ crShr R (castTo R b) (castTo R d) = .ret c4 ∧
      itvShr R ⟨castTo R a, castTo R b⟩ ⟨castTo R c, castTo R d⟩ = .ret ri ∧ Proper R ri.l ∧ Proper R ri.u ∧
      ((Vague c1 ∧ Vague ri.l ∧ Vague ri.u) ∨
       (¬ Vague c1 ∧ ∀ x, x ∈ [c1, c2, c3, c4] → ¬ Vague x →
          (∀ v, ri.l = .ok v → v ≤ x.key R) ∧ (∀ v, ri.u = .ok v → x.key R ≤ v)))) := by
  rcases crShr_total hR a c with ⟨f, e1⟩ | ⟨c1, e1, p1⟩
  · left; exact ⟨f, by simp only [itvShr, corners, e1]; rfl⟩
  rcases crShr_total hR a d with ⟨f, e2⟩ | ⟨c2, e2, p2⟩
  · left; exact ⟨f, by simp only [itvShr, corners, e1, e2, Out.ret_bind]; rfl⟩
  rcases crShr_total hR b c with ⟨f, e3⟩ | ⟨c3, e3, p3⟩
  · left; exact ⟨f, by simp only [itvShr, corners, e1, e2, e3, Out.ret_bind]; rfl⟩
  rcases crShr_total hR b d with ⟨f, e4⟩ | ⟨c4, e4, p4⟩
  · left; exact ⟨f, by simp only [itvShr, corners, e1, e2, e3, e4, Out.ret_bind]; rfl⟩
  right
  obtain ⟨ri, e, q⟩ := corners_spec (R := R) (op := crShr R) (t := ⟨castTo R a, castTo R b⟩)
    (u := ⟨castTo R c, castTo R d⟩) e1 e2 e3 e4 p1 p2 p3 p4
  exact ⟨c1, c2, c3, c4, ri, e1, e2, e3, e4, e, q⟩

/-- like `crShr_val`, for a corner that is defined -/
theorem crShr_ret {R : ITy} (hR : R.Ok) {a b : Int} {r : CR} (h : crShr R (castTo R a) (castTo R b) = .ret r) :
    Proper R r ∧ ((r = .ok (scale a (-b)) ∧ R.In a) ∨
       (r = .err .positive_overflow_error ∧ 0 < a ∧ (R.In a → b < 0)) ∨
       (r = .err .negative_overflow_error ∧ a < 0 ∧ (R.In a → b < 0)) ∨
       (Vague r ∧ a ≠ 0 ∧ (R.signed = false ∧ (a < 0 ∨ b < 0) ∨ R.max < b ∧ ¬ R.In a))) := by
  by_cases hb : ShrBad R a b
  · rcases crShr_bad hR hb with g | g
    · rw [g] at h; cases h
    · rw [g] at h; cases h
      refine ⟨proper_pos R, Or.inr (Or.inl ⟨rfl, hb.2.2.2, fun i => ?_⟩)⟩
      exfalso
      obtain ⟨hs, hl, hbb, ha⟩ := hb
      have hk := ok_bits hR; have h8 := R.bits_pos
      have ib : R.In b := by
        refine ⟨by have := R.min_nonpos; omega, ?_⟩
        unfold ITy.max; rw [ITy.digits_unsigned hs]
        have : R.bits < 2 ^ R.bits := Nat.lt_two_pow_self
        zify at this; omega
      rw [castTo_of_in i, castTo_of_in ib] at g
      unfold crShr crShift at g
      rw [prodFlag_gt i ha, prodFlag_gt ib (by omega)] at g
      simp only [Bool.false_eq_true, if_false, shrTable, PFlag.row, crGt, crLt_toBool R.in_zero i,
        crLt_toBool R.in_zero ib, ha, show 0 < b by omega, decide_true, assertThat, if_true, Out.ret_bind,
        CR.value] at g
      rw [rightShift_eq hR i ib, if_neg (by omega), if_neg (by rw [ITy.digits_unsigned hs]; omega),
        if_neg (by omega), if_pos ⟨hs, hl, hbb⟩] at g
      cases g
  · obtain ⟨r', e, p, f⟩ := crShr_val hR a b hb
    rw [e] at h; cases h
    refine ⟨p, ?_⟩
    rcases f with f | ⟨f1, f2, _, f4⟩ | f | f
    · exact Or.inl f
    · exact Or.inr (Or.inl ⟨f1, f2, f4⟩)
    · exact Or.inr (Or.inr (Or.inl f))
    · exact Or.inr (Or.inr (Or.inr f))

omit [Arch] in
theorem in_digits (R : ITy) : R.In (R.digits : Int) := by
  refine ⟨by have := R.min_nonpos; omega, ?_⟩
  unfold ITy.max
  have : R.digits < 2 ^ R.digits := Nat.lt_two_pow_self
  zify at this; omega

/-- an interval of the shift count on which the result type is miscomputed: possibly negative counts that have no
counterpart in an unsigned result type -/
def LostCount (R : ITy) (T U : Opd) : Prop := R.signed = false ∧ U.lo < 0 ∧ T.lo = 0 ∧ 0 < T.hi

instance (R : ITy) (T U : Opd) : Decidable (LostCount R T U) := inferInstanceAs (Decidable (_ ∧ _ ∧ _ ∧ _))

/-- the interval of `>>`: it exists or the program does not compile; what it contains -/
theorem shr_res {R : ITy} (hR : R.Ok) {T U : Opd} (hT : T.Wf) (hU : U.Wf) :
    resItv itvShr R T U = .fault .illFormed ∨
    ∃ ri, resItv itvShr R T U = .ret ri ∧ Proper R ri.l ∧ Proper R ri.u ∧
      (∀ t u, T.Has t → U.Has u → R.In t → R.In u → 0 ≤ t → 0 ≤ u → ¬ LostCount R T U →
        Held ri (t / 2 ^ u.toNat)) ∧
      (shrExcPossible R ⟨castTo R T.lo, castTo R T.hi⟩ ⟨castTo R U.lo, castTo R U.hi⟩ ri = false →
        ¬ (R.signed = false ∧ U.lo < 0 ∧ T.lo = 0) →
        R.In T.hi ∧ 0 ≤ T.lo ∧ 0 ≤ U.lo ∧ U.hi ≤ R.digits) := by
  have hz := R.min_nonpos; have hm := R.max_ge
  rcases itvShr_corners hR T.lo T.hi U.lo U.hi with ⟨f, e⟩ | ⟨c1, c2, c3, c4, ri, e1, e2, e3, e4, e, q1, q2, hh⟩
  · left
    apply static_fault (f := f)
    rw [castItv_eq hT, castItv_eq hU]
    exact e
  right
  obtain ⟨p1, f1⟩ := crShr_ret hR e1
  obtain ⟨p2, f2⟩ := crShr_ret hR e2
  obtain ⟨p3, f3⟩ := crShr_ret hR e3
  refine ⟨ri, resItv_of hT hU e, q1, q2, ?_, ?_⟩
  · intro t u ht hu it iu t0 u0 hL
    have t1 := ht.1; have t2 := ht.2; have u1 := hu.1; have u2 := hu.2
    have i1 := it.1; have i2 := it.2; have j1 := iu.1; have j2 := iu.2
    have hpp := two_pow_pos u.toNat
    have x0 : 0 ≤ t / 2 ^ u.toNat := Int.ediv_nonneg t0 (by omega)
    have x1 : t / 2 ^ u.toNat ≤ t := Int.ediv_le_self _ t0
    rcases hh with ⟨_, vl, vu⟩ | ⟨va, hh⟩
    · exact ⟨fun v h => by rw [h] at vl; exact absurd vl (not_vague_ok v),
        fun v h => by rw [h] at vu; exact absurd vu (not_vague_ok v)⟩
    have hv1 : R.signed = false → T.lo ≠ 0 → 0 ≤ T.lo ∧ 0 ≤ U.lo := by
      intro hs h0
      by_contra hc
      have := crShr_vague hs h0 (b := U.lo) (by omega)
      rw [e1] at this; cases this
      exact va vague_range
    constructor
    · intro v hv
      have hh1 := fun h => (hh c1 (by simp) h).1 v hv
      have hh2 := fun h => (hh c2 (by simp) h).1 v hv
      rcases Int.lt_or_le T.lo 0 with hn | hn
      · rcases f1 with ⟨rfl, i⟩ | ⟨rfl, g, _⟩ | ⟨rfl, _⟩ | ⟨g, _⟩
        · have := hh1 (not_vague_ok _)
          rw [key_ok] at this
          have := scale_nonpos (a := T.lo) (b := -U.lo) (by omega); omega
        · omega
        · have := hh1 not_vague_neg
          rw [key_neg] at this; omega
        · exact absurd g va
      · have iT : R.In T.lo := ⟨by omega, by omega⟩
        rcases f2 with ⟨rfl, i⟩ | ⟨rfl, _, g⟩ | ⟨rfl, g, _⟩ | ⟨_, _, ⟨_, g⟩ | ⟨_, g⟩⟩
        · have := hh2 (not_vague_ok _)
          rw [key_ok] at this
          have key : scale T.lo (-U.hi) ≤ t / 2 ^ u.toNat := by
            rcases Int.lt_or_le 0 U.hi with h | h
            · rw [scale_neg (by omega), Int.neg_neg, Int.tdiv_eq_ediv_of_nonneg hn]
              have h1 := two_pow_le (show u.toNat ≤ U.hi.toNat by omega)
              have h2 : T.lo / 2 ^ U.hi.toNat ≤ t / 2 ^ U.hi.toNat := Int.ediv_le_ediv (two_pow_pos _) t1
              have h3 : t / 2 ^ U.hi.toNat ≤ t / 2 ^ u.toNat := by
                rw [← Int.tdiv_eq_ediv_of_nonneg t0, ← Int.tdiv_eq_ediv_of_nonneg t0]
                exact tdiv_anti_den t0 (two_pow_pos _) h1
              omega
            · have hu' : U.hi = 0 := by omega
              have hu0 : u = 0 := by omega
              rw [hu', hu0, scale_nonneg (by omega)]; simpa using t1
          omega
        · have := g iT; omega
        · omega
        · omega
        · exact absurd iT g
    · intro v hv
      have hh3 := fun h => (hh c3 (by simp) h).2 v hv
      have hU0 : R.signed = true ∨ 0 ≤ U.lo ∨ T.hi = 0 := by
        rcases hs : R.signed with _ | _
        · by_cases h0 : T.lo = 0
          · by_cases h1 : U.lo < 0
            · right; right
              by_contra hc
              exact hL ⟨hs, h1, h0, by omega⟩
            · right; left; omega
          · right; left; exact (hv1 hs h0).2
        · exact Or.inl rfl
      rcases f3 with ⟨rfl, i⟩ | ⟨rfl, _⟩ | ⟨rfl, g, _⟩ | ⟨_, g0, ⟨gs, g⟩ | ⟨g, _⟩⟩
      · have := hh3 (not_vague_ok _)
        rw [key_ok] at this
        rcases Int.lt_or_le 0 U.lo with h | h
        · rw [scale_neg (by omega), Int.neg_neg, Int.tdiv_eq_ediv_of_nonneg (by omega)] at this
          have h1 := two_pow_le (show U.lo.toNat ≤ u.toNat by omega)
          have h2 : t / 2 ^ U.lo.toNat ≤ T.hi / 2 ^ U.lo.toNat := Int.ediv_le_ediv (two_pow_pos _) t2
          have h3 : t / 2 ^ u.toNat ≤ t / 2 ^ U.lo.toNat := by
            rw [← Int.tdiv_eq_ediv_of_nonneg t0, ← Int.tdiv_eq_ediv_of_nonneg t0]
            exact tdiv_anti_den t0 (two_pow_pos _) h1
          omega
        · rw [scale_nonneg (by omega)] at this
          have := mul_pow_ge (a := T.hi) (b := -U.lo) (by omega); omega
      · have := hh3 not_vague_pos
        rw [key_pos] at this; omega
      · omega
      · rcases hU0 with h | h | h
        · rw [gs] at h; cases h
        · omega
        · omega
      · omega
  · intro hx hN
    unfold shrExcPossible at hx
    simp only [T3.or_toBool, Bool.or_eq_false_iff] at hx
    obtain ⟨⟨⟨⟨x1, x2⟩, x3⟩, x4⟩, x5⟩ := hx
    have lT := hT.2.2.2.1; have lU := hU.2.2.2.1
    have ok1 : ∃ v, ri.l = .ok v := by
      rcases e : ri.l with v | e'
      · exact ⟨v, rfl⟩
      · rw [e] at x4 q1
        have q : e' ≠ .success := q1
        simp [CR.exception, q, T3.ofBool, T3.toBool] at x4
    have ok2 : ∃ v, ri.u = .ok v := by
      rcases e : ri.u with v | e'
      · exact ⟨v, rfl⟩
      · rw [e] at x5 q2
        have q : e' ≠ .success := q2
        simp [CR.exception, q, T3.ofBool, T3.toBool] at x5
    obtain ⟨w1, k1⟩ := ok1
    obtain ⟨w2, k2⟩ := ok2
    rcases hh with ⟨_, vl, _⟩ | ⟨va, hh⟩
    · rw [k1] at vl; exact absurd vl (not_vague_ok _)
    have hv : R.signed = false → 0 ≤ T.lo ∧ 0 ≤ U.lo := by
      intro hs
      by_cases h0 : T.lo = 0
      · refine ⟨by omega, ?_⟩
        by_contra hc
        exact hN ⟨hs, by omega, h0⟩
      · by_contra hc
        have := crShr_vague hs h0 (b := U.lo) (by omega)
        rw [e1] at this; cases this
        exact va vague_range
    have nv : ∀ x, T.lo ≤ x ∨ U.lo ≤ x → ¬ Vague (castTo R x) := by
      intro x hx h
      obtain ⟨hs, h2⟩ := castTo_vague.1 h
      have := hv hs; omega
    have kz : ∀ x, ¬ Vague (castTo R x) → (crLt R (castTo R x) (.ok 0)).toBool = false → 0 ≤ x := by
      intro x v h
      have := crLtB_key (R := R) (a := castTo R x) (b := .ok 0) castTo_proper R.in_zero v (not_vague_ok _)
      change (crLt R _ _).toBool = _ at this
      rw [h] at this
      have := of_decide_eq_false this.symm
      rw [key_ok] at this
      rcases castTo_cases R x with ⟨e, _⟩ | ⟨e, _⟩ | ⟨e, _⟩ | ⟨e, _⟩
      · rw [e, key_ok] at this; omega
      · omega
      · rw [e, key_neg] at this; omega
      · rw [e] at v; exact absurd vague_domain v
    have z1 := kz T.lo (nv _ (Or.inl (Int.le_refl _))) x2
    have z2 := kz U.lo (nv _ (Or.inr (Int.le_refl _))) x3
    have z3 : U.hi ≤ R.digits := by
      have hd := in_digits R
      rw [conv_of_in hd] at x1
      have := crLtB_key (R := R) (a := .ok (R.digits : Int)) (b := castTo R U.hi) hd castTo_proper (not_vague_ok _)
        (nv _ (Or.inr lU))
      change (crLt R _ _).toBool = _ at this
      change (crLt R _ _).toBool = _ at x1
      rw [x1] at this
      have kk := of_decide_eq_false this.symm
      rw [key_ok] at kk
      have := hd.2
      rcases castTo_cases R U.hi with ⟨e, _⟩ | ⟨e, _⟩ | ⟨e, _⟩ | ⟨e, _⟩
      · rw [e, key_ok] at kk; omega
      · rw [e, key_pos] at kk; omega
      · omega
      · omega
    refine ⟨?_, z1, z2, z3⟩
    have hd := (in_digits R).2
    have hh3 := fun h => (hh c3 (by simp) h).2 w2 k2
    rcases f3 with ⟨rfl, i⟩ | ⟨rfl, _⟩ | ⟨rfl, g, _⟩ | ⟨_, g0, ⟨gs, g⟩ | ⟨g, _⟩⟩
    · exact i
    · have := hh3 not_vague_pos
      rw [key_pos] at this
      rw [k2] at q2; have := q2.2; omega
    · omega
    · omega
    · omega

/-! ### the run time part -/

omit [Arch] in
theorem handler_shift {p : EP} (hp : p.idb = .throw) {e : Err} (he : makeAction e = .implementation_defined_behavior) :
    dispatchAndReturn p e = .thrown e := by
  unfold dispatchAndReturn dispatch EP.act
  rw [he, hp]; rfl

theorem traps_shl (p : EP) : p.traps opShl.errs = decide (p.idb = .trap) := by
  show p.traps [_, _] = _
  unfold EP.traps EP.act; simp only [List.any, makeAction]
  cases p.idb <;> first | decide | simp

theorem traps_shr (p : EP) : p.traps opShr.errs = decide (p.idb = .trap) := by
  show p.traps [_, _, _] = _
  unfold EP.traps EP.act; simp only [List.any, makeAction]
  cases p.idb <;> first | decide | simp

/-- `<<` carried out in the type `R` with a throwing policy -/
def shlIn (R : ITy) (t u : Int) : Out Int := do
  let a ← orThrow (castTo R t)
  let b ← orThrow (castTo R u)
  if b = 0 then .ret a
  else if b < 0 then .thrown .negative_shift
  else if (R.digits : Int) < b then .thrown .shift_too_large
  else if a < 0 then .thrown .negative_shift
  else if R.max < a * 2 ^ b.toNat ∨ (a = 0 ∧ b = R.digits) then .thrown .shift_too_large
  else .ret (a * 2 ^ b.toNat)

/-- `>>` carried out in the type `R` with a throwing policy, except for the undefined case -/
def shrIn (R : ITy) (t u : Int) : Out Int := do
  let a ← orThrow (castTo R t)
  let b ← orThrow (castTo R u)
  if b < 0 then .thrown .negative_shift
  else if (R.digits : Int) < b then .thrown .shift_too_large
  else if a < 0 then .thrown .negative_value_shift
  else if R.signed = false ∧ Arch.intLg ≤ R.lg ∧ b = R.bits then .fault .ub
  else .ret (a / 2 ^ b.toNat)

theorem checkedShl_throw {R : ITy} (hR : R.Ok) {p : EP} (hp : p.ae = .throw) (hi : p.idb = .throw) {T U : Opd}
    {t u : Int} (hT : T.Wf) (ht : T.Has t) (hU : U.Wf) (hu : U.Has u) :
    runChecked opShl p R T U t u = if LitsOk R T U then shlIn R t u else .fault .illFormed := by
  have h : p.ae ≠ .trap := by rw [hp]; decide
  have h' : p.idb ≠ .trap := by rw [hi]; decide
  have hz := R.min_nonpos
  unfold runChecked LitsOk
  rw [castStatic_eq hT, castStatic_eq hU, traps_shl]
  by_cases lT : litOk R T = true
  · by_cases lU : litOk R U = true
    · rw [castingHelper_throw hp hT ht hU hu lT lU]
      simp only [lT, lU, h, h', ne_eq, not_false_eq_true, and_self, if_true, Out.ret_bind, decide_false,
        Bool.false_eq_true, if_false]
      unfold shlIn
      rcases ct : castTo R t with a | e
      · obtain ⟨rfl, hti⟩ := castTo_ok ct
        rcases cu : castTo R u with b | e
        · obtain ⟨rfl, hui⟩ := castTo_ok cu
          simp only [orThrow, Out.ret_bind]
          show (leftShift R _ a b >>= _) = _
          rw [leftShift_eq hR hti hui, handler_shift hi rfl, handler_shift hi rfl]
          split_ifs with h1 h2 h3 h4 h5 h6 h7
          · rfl
          · rfl
          · rfl
          · rfl
          · rfl
          · exfalso
            have g0 : 0 < a := by
              rcases Int.lt_or_eq_of_le (show 0 ≤ a by omega) with g | g
              · exact g
              · subst g
                rw [show sbits 0 = 1 by simp [sbits]] at h5; omega
            have := shl_overflows (d := R.digits) g0 (by omega) h5
            unfold ITy.max at h6; omega
          · exfalso
            have := shl_fits (d := R.digits) (t := a) (u := b) (by omega) (by omega) (by omega)
            unfold ITy.max at h7
            rcases h7 with h7 | ⟨rfl, h7⟩
            · omega
            · rw [show sbits 0 = 1 by simp [sbits]] at h5; omega
          · rfl
        · rfl
      · rfl
    · simp [lT, lU, h]
  · simp [lT]

theorem checkedShr_throw {R : ITy} (hR : R.Ok) {p : EP} (hp : p.ae = .throw) (hi : p.idb = .throw) {T U : Opd}
    {t u : Int} (hT : T.Wf) (ht : T.Has t) (hU : U.Wf) (hu : U.Has u) :
    runChecked opShr p R T U t u = if LitsOk R T U then shrIn R t u else .fault .illFormed := by
  have h : p.ae ≠ .trap := by rw [hp]; decide
  have h' : p.idb ≠ .trap := by rw [hi]; decide
  unfold runChecked LitsOk
  rw [castStatic_eq hT, castStatic_eq hU, traps_shr]
  by_cases lT : litOk R T = true
  · by_cases lU : litOk R U = true
    · rw [castingHelper_throw hp hT ht hU hu lT lU]
      simp only [lT, lU, h, h', ne_eq, not_false_eq_true, and_self, if_true, Out.ret_bind, decide_false,
        Bool.false_eq_true, if_false]
      unfold shrIn
      rcases ct : castTo R t with a | e
      · obtain ⟨rfl, hti⟩ := castTo_ok ct
        rcases cu : castTo R u with b | e
        · obtain ⟨rfl, hui⟩ := castTo_ok cu
          simp only [orThrow, Out.ret_bind]
          show (rightShift R _ a b >>= _) = _
          rw [rightShift_eq hR hti hui, handler_shift hi rfl, handler_shift hi rfl, handler_shift hi rfl]
          split_ifs <;> rfl
        · rfl
      · rfl
    · simp [lT, lU, h]
  · simp [lT]

theorem promote_bits_ge (R : ITy) : R.bits ≤ (promote R).bits := by
  unfold promote
  split
  · rename_i h
    exact Nat.mul_le_mul_left 8 (Nat.pow_le_pow_right (by decide) (Nat.le_of_lt h))
  · exact Nat.le_refl _

/-- the built-in `<<` -/
theorem plainShl {R : ITy} {t u : Int} (it : R.In t) (iu : R.In u) (t0 : 0 ≤ t) (u0 : 0 ≤ u)
    (hb : u < R.bits) (ix : R.In (t * 2 ^ u.toNat)) : runPlain opShl R t u = .ret (t * 2 ^ u.toNat) := by
  unfold runPlain
  rw [conv_of_in it, conv_of_in iu]
  show (cShl R R t u >>= _) = _
  rw [cShl_eq (in_promote it) t0 (in_promote iu) u0 (by have := promote_bits_ge R; omega) (in_promote ix), Out.ret_bind,
    conv_of_in ix]

/-- the built-in `>>` -/
theorem plainShr {R : ITy} {t u : Int} (it : R.In t) (iu : R.In u) (t0 : 0 ≤ t) (u0 : 0 ≤ u)
    (hb : u < (promote R).bits) : runPlain opShr R t u = .ret (t / 2 ^ u.toNat) := by
  have hz := R.min_nonpos; have i2 := it.2
  have h1 : t / 2 ^ u.toNat ≤ t := Int.ediv_le_self _ t0
  have h2 : 0 ≤ t / 2 ^ u.toNat := Int.ediv_nonneg t0 (Int.le_of_lt (two_pow_pos _))
  unfold runPlain
  rw [conv_of_in it, conv_of_in iu]
  show (cShr R R t u >>= _) = _
  rw [cShr_eq (in_promote it) (in_promote iu), if_neg (by omega), Out.ret_bind,
    conv_of_in ⟨by omega, by omega⟩]

/-! ### promotion policies -/

theorem autoShiftTemp_cases (T : Opd) : autoShiftTemp T = tIntMax ∨ autoShiftTemp T = tUIntMax := by
  unfold autoShiftTemp; split
  · exact Or.inl rfl
  · exact Or.inr rfl

theorem autoShiftTemp_ok (T : Opd) : (autoShiftTemp T).Ok := by
  rcases autoShiftTemp_cases T with h | h <;> rw [h]
  · exact tIntMax_ok
  · exact tUIntMax_ok

/-- every policy gives a type of the machine for a shift, or the program does not compile -/
theorem PP.result_shift {pp : PP} (hpp : pp.Wf) {op : BinOp} (hop : op = .shl ∨ op = .shr) {T U : Opd} (hT : T.Wf)
    (hU : U.Wf) : (∃ R, pp.result op T U = .ret R ∧ R.Ok) ∨ pp.result op T U = .fault .illFormed := by
  cases pp
  case native =>
    left
    refine ⟨_, rfl, ?_⟩
    unfold nativeResult; split
    · exact promote_ok hT.1
    · exact promote_ok hT.1
    · exact uac_ok hT.1 hU.1
  case cpp m => exact cppResult_total hpp.2.2.1 hT.1 hU.1
  case automatic =>
    rcases hop with rfl | rfl
    · obtain ⟨ri, e, p1, p2, _⟩ := shl_res (autoShiftTemp_ok T) hT hU
      obtain ⟨S, e', _, ok, _⟩ := autoEnds_spec (autoShiftTemp_cases T) p1 p2
      exact Or.inl ⟨S, by simp only [PP.result, autoResult, e, Out.ret_bind, e'], ok⟩
    · have key : ∀ x : Int, ∃ y, (if (castTo (autoShiftTemp T) x).exception then CR.ok 0 else castTo (autoShiftTemp T) x)
          = castTo (autoShiftTemp T) y := by
        intro x; split
        · exact ⟨0, (castTo_of_in (ITy.in_zero _)).symm⟩
        · exact ⟨x, rfl⟩
      obtain ⟨y, hy⟩ := key U.lo
      simp only [PP.result, autoResult, autoShr, castItv_eq hT, castItv_eq hU, Out.ret_bind, hy]
      rcases itvShr_corners (autoShiftTemp_ok T) T.lo T.hi y U.hi with ⟨f, e⟩ |
        ⟨c1, c2, c3, c4, ri, _, _, _, _, e, p1, p2, _⟩
      · right; rw [static_fault e]; rfl
      · left
        obtain ⟨S, e', _, ok, _⟩ := autoEnds_spec (autoShiftTemp_cases T) p1 p2
        rw [static_ret e]
        exact ⟨S, e', ok⟩

/-! ### policies that do not throw on shift errors -/

/-- the policy `p`, made to throw on shift errors -/
def EP.strictShift (p : EP) : EP := { p with idb := .throw }

theorem checkedShl_free {R : ITy} (hR : R.Ok) {p : EP} (hp : p.ae = .throw) (hi : p.idb ≠ .trap) {T U : Opd} {t u : Int}
    (hT : T.Wf) (ht : T.Has t) (hU : U.Wf) (hu : U.Has u) (hf : ShlFree R t u) :
    runChecked opShl p R T U t u = runChecked opShl p.strictShift R T U t u := by
  rw [checkedShl_throw (p := p.strictShift) hR hp rfl hT ht hU hu]
  have h : p.ae ≠ .trap := by rw [hp]; decide
  unfold runChecked LitsOk
  rw [castStatic_eq hT, castStatic_eq hU, traps_shl]
  by_cases lT : litOk R T = true
  · by_cases lU : litOk R U = true
    · rw [castingHelper_throw hp hT ht hU hu lT lU]
      simp only [lT, lU, h, hi, ne_eq, not_false_eq_true, and_self, if_true, Out.ret_bind, decide_false,
        Bool.false_eq_true, if_false]
      unfold shlIn
      rcases ct : castTo R t with a | e
      · obtain ⟨rfl, hti⟩ := castTo_ok ct
        rcases cu : castTo R u with b | e
        · obtain ⟨rfl, hui⟩ := castTo_ok cu
          simp only [orThrow, Out.ret_bind]
          show (leftShift R _ a b >>= _) = _
          rw [leftShift_eq hR hti hui]
          rcases hf with rfl | ⟨h0, h1, h2, h3⟩
          · rw [if_pos rfl, if_pos rfl]; rfl
          · have hd : b < R.digits := by
              by_contra hc
              have a0 : 0 < a := by
                rcases Int.lt_or_eq_of_le h1 with g | g
                · exact g
                · exact absurd (h3 g.symm) hc
              have h6 := two_pow_le (show R.digits ≤ b.toNat by omega)
              have h7 := mul_pow_mono (a := 1) (b := b) (t := a) (u := b) (by omega) (by omega) (Int.le_refl _)
              unfold ITy.max at h2; omega
            have hs : ¬ ((R.digits : Int) - sbits a < b) := by
              intro hs
              rcases Int.lt_or_eq_of_le h1 with g | g
              · have := shl_overflows (d := R.digits) g (Int.le_of_lt h0) hs
                unfold ITy.max at h2; omega
              · subst g
                rw [show sbits 0 = 1 by simp [sbits]] at hs
                omega
            rw [if_neg (by omega), if_neg (by omega), if_neg (by omega), if_neg (by omega), if_neg hs,
              if_neg (by omega), if_neg (by omega), if_neg (by omega), if_neg (by omega), if_neg (by omega)]
            rfl
        · rfl
      · rfl
    · simp [lT, lU, h]
  · simp [lT]

theorem checkedShr_free {R : ITy} (hR : R.Ok) {p : EP} (hp : p.ae = .throw) (hi : p.idb ≠ .trap) {T U : Opd} {t u : Int}
    (hT : T.Wf) (ht : T.Has t) (hU : U.Wf) (hu : U.Has u) (hf : ShrFree R t u) :
    runChecked opShr p R T U t u = runChecked opShr p.strictShift R T U t u := by
  rw [checkedShr_throw (p := p.strictShift) hR hp rfl hT ht hU hu]
  have h : p.ae ≠ .trap := by rw [hp]; decide
  obtain ⟨f1, f2, f3⟩ := hf
  unfold runChecked LitsOk
  rw [castStatic_eq hT, castStatic_eq hU, traps_shr]
  by_cases lT : litOk R T = true
  · by_cases lU : litOk R U = true
    · rw [castingHelper_throw hp hT ht hU hu lT lU]
      simp only [lT, lU, h, hi, ne_eq, not_false_eq_true, and_self, if_true, Out.ret_bind, decide_false,
        Bool.false_eq_true, if_false]
      unfold shrIn
      rcases ct : castTo R t with a | e
      · obtain ⟨rfl, hti⟩ := castTo_ok ct
        rcases cu : castTo R u with b | e
        · obtain ⟨rfl, hui⟩ := castTo_ok cu
          simp only [orThrow, Out.ret_bind]
          show (rightShift R _ a b >>= _) = _
          rw [rightShift_eq hR hti hui, if_neg (by omega), if_neg (by omega), if_neg (by omega),
            if_neg (show ¬ b < 0 by omega), if_neg (show ¬ (R.digits : Int) < b by omega), if_neg (show ¬ a < 0 by omega)]
          split_ifs <;> rfl
        · rfl
      · rfl
    · simp [lT, lU, h]
  · simp [lT]

/-- where no shift error occurs, a policy that ignores shift errors behaves like one that throws -/
theorem shl_free {pp : PP} (hpp : pp.Wf) {p : EP} (hp : p.ae = .throw) (hi : p.idb ≠ .trap) {T U : Opd} (hT : T.Wf) (hU : U.Wf)
    {t u : Int} (ht : T.Has t) (hu : U.Has u) (hf : ∀ R, pp.result .shl T U = .ret R → ShlFree R t u) :
    shl pp p T U t u = shl pp p.strictShift T U t u := by
  unfold shl
  rcases PP.result_shift hpp (Or.inl rfl) hT hU with ⟨R, e, hR⟩ | e <;> rw [e]
  · simp only [Out.ret_bind]
    obtain ⟨ri, e', _⟩ := shl_res hR hT hU
    show runOp opShl p R T U t u = runOp opShl p.strictShift R T U t u
    rw [runOp_cases (op := opShl) e', runOp_cases (op := opShl) e', checkedShl_free hR hp hi hT ht hU hu (hf R e)]
  · rfl

theorem shr_free {pp : PP} (hpp : pp.Wf) {p : EP} (hp : p.ae = .throw) (hi : p.idb ≠ .trap) {T U : Opd} (hT : T.Wf) (hU : U.Wf)
    {t u : Int} (ht : T.Has t) (hu : U.Has u) (hf : ∀ R, pp.result .shr T U = .ret R → ShrFree R t u) :
    shr pp p T U t u = shr pp p.strictShift T U t u := by
  unfold shr
  rcases PP.result_shift hpp (Or.inr rfl) hT hU with ⟨R, e, hR⟩ | e <;> rw [e]
  · simp only [Out.ret_bind]
    unfold runShr
    rw [checkedShr_free hR hp hi hT ht hU hu (hf R e)]
  · rfl

theorem checked_trap {op : ArithOp} {R : ITy} {p : EP} (ht : p.traps op.errs = true) {T U : Opd} (hT : T.Wf) (hU : U.Wf)
    (t u : Int) : runChecked op p R T U t u = .fault .illFormed := by
  unfold runChecked
  rw [castStatic_eq hT, castStatic_eq hU, ht]
  split <;> [skip; rfl]
  split <;> rfl

/-- a policy that traps on shift errors, and operand types without shift errors: the program is rejected, or runs as with a policy
that throws -/
theorem shl_trapFree {pp : PP} (hpp : pp.Wf) {p : EP} (hi : p.idb = .trap) {T U : Opd} (hT : T.Wf) (hU : U.Wf) :
    (∀ t u, shl pp p T U t u = .fault .illFormed) ∨ ∀ t u, shl pp p T U t u = shl pp p.strictShift T U t u := by
  unfold shl
  rcases PP.result_shift hpp (Or.inl rfl) hT hU with ⟨R, e, hR⟩ | e <;> rw [e]
  · simp only [Out.ret_bind]
    obtain ⟨ri, e', _⟩ := shl_res hR hT hU
    by_cases hx : staticExc opShl R T U = true
    · left
      intro t u
      show runOp opShl p R T U t u = _
      rw [runOp_cases (op := opShl) e', if_pos hx, checked_trap (by rw [traps_shl, hi]; rfl) hT hU]
    · right
      intro t u
      show runOp opShl p R T U t u = runOp opShl p.strictShift R T U t u
      rw [runOp_cases (op := opShl) e', runOp_cases (op := opShl) e', if_neg hx, if_neg hx]
  · exact Or.inl fun _ _ => rfl

theorem shr_trapFree {pp : PP} (hpp : pp.Wf) {p : EP} (hi : p.idb = .trap) {T U : Opd} (hT : T.Wf) (hU : U.Wf) :
    (∀ t u, shr pp p T U t u = .fault .illFormed) ∨ ∀ t u, shr pp p T U t u = shr pp p.strictShift T U t u := by
  unfold shr
  rcases PP.result_shift hpp (Or.inr rfl) hT hU with ⟨R, e, hR⟩ | e <;> rw [e]
  · simp only [Out.ret_bind]
    unfold runShr
    rcases shr_res hR hT hU with e' | ⟨ri, e', _⟩ <;> rw [e']
    · exact Or.inl fun _ _ => rfl
    · rw [castItv_eq hT, castItv_eq hU]
      simp only [Out.ret_bind]
      split
      · left
        intro t u
        rw [checked_trap (by rw [traps_shr, hi]; rfl) hT hU]
      · exact Or.inr fun _ _ => rfl
  · exact Or.inl fun _ _ => rfl

theorem EP.strictShift_self {p : EP} (h : p.idb = .throw) : p.strictShift = p := by
  cases p; simp only at h; subst h; rfl

/-- with any policy that throws on arithmetic errors: as with one that throws on shift errors, or rejected -/
theorem shl_policy {pp : PP} (hpp : pp.Wf) {p : EP} (hp : p.ae = .throw) {T U : Opd} (hT : T.Wf) (hU : U.Wf)
    (h : (p.idb = .throw ∨ p.ae = .trap) ∨ ∀ t u R, T.Has t → U.Has u → pp.result .shl T U = .ret R → ShlFree R t u) :
    (∀ t u, T.Has t → U.Has u → shl pp p T U t u = shl pp p.strictShift T U t u) ∨ ∀ t u, shl pp p T U t u = .fault .illFormed := by
  rcases h with (h | h) | h
  · rw [EP.strictShift_self h]; exact Or.inl fun _ _ _ _ => rfl
  · rw [hp] at h; cases h
  · by_cases ht : p.idb = .trap
    · rcases shl_trapFree hpp ht hT hU with g | g
      · exact Or.inr g
      · exact Or.inl fun t u _ _ => g t u
    · exact Or.inl fun t u h1 h2 => shl_free hpp hp ht hT hU h1 h2 fun R e => h t u R h1 h2 e

theorem shr_policy {pp : PP} (hpp : pp.Wf) {p : EP} (hp : p.ae = .throw) {T U : Opd} (hT : T.Wf) (hU : U.Wf)
    (h : (p.idb = .throw ∨ p.ae = .trap) ∨ ∀ t u R, T.Has t → U.Has u → pp.result .shr T U = .ret R → ShrFree R t u) :
    (∀ t u, T.Has t → U.Has u → shr pp p T U t u = shr pp p.strictShift T U t u) ∨ ∀ t u, shr pp p T U t u = .fault .illFormed := by
  rcases h with (h | h) | h
  · rw [EP.strictShift_self h]; exact Or.inl fun _ _ _ _ => rfl
  · rw [hp] at h; cases h
  · by_cases ht : p.idb = .trap
    · rcases shr_trapFree hpp ht hT hU with g | g
      · exact Or.inr g
      · exact Or.inl fun t u _ _ => g t u
    · exact Or.inl fun t u h1 h2 => shr_free hpp hp ht hT hU h1 h2 fun R e => h t u R h1 h2 e

end
end Verif
