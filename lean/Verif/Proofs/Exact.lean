import Verif.ExactSpec
import Verif.Props.Shift
import Verif.Props.SafeDiv
import Verif.Proofs.TrapIff

/-! Lemmas for property C76: the compile time decision of `<<`, `>>` and `%` in closed form. -/

namespace Verif
open Spec
section
variable [Arch]

omit [Arch] in
theorem scale_mono {a b t u : Int} (ha : 0 ≤ a) (hat : a ≤ t) (hbu : b ≤ u) : scale a b ≤ scale t u := by
  have key : ∀ n : Int, 0 ≤ n → ∀ k : Nat, 0 ≤ n.tdiv (2 ^ k) ∧ n.tdiv (2 ^ k) ≤ n := fun n hn k => by
    have := tdiv_nonneg_bounds (a := n) (b := 2 ^ k) hn (two_pow_pos _); omega
  rcases Int.lt_or_le b 0 with hb | hb
  · rw [scale_neg hb]
    rcases Int.lt_or_le u 0 with hu | hu
    · rw [scale_neg hu, Int.tdiv_eq_ediv_of_nonneg ha, Int.tdiv_eq_ediv_of_nonneg (by omega)]
      have h1 : a / 2 ^ (-b).toNat ≤ a / 2 ^ (-u).toNat := by
        have h2 := two_pow_le (show (-u).toNat ≤ (-b).toNat by omega)
        apply Int.le_ediv_of_mul_le (two_pow_pos _)
        have h3 := Int.ediv_mul_le a (b := 2 ^ (-b).toNat) (by have := two_pow_pos (-b).toNat; omega)
        have h4 : (0 : Int) ≤ a / 2 ^ (-b).toNat := Int.ediv_nonneg ha (by have := two_pow_pos (-b).toNat; omega)
        exact Int.le_trans (Int.mul_le_mul_of_nonneg_left h2 h4) h3
      exact Int.le_trans h1 (Int.ediv_le_ediv (two_pow_pos _) hat)
    · rw [scale_nonneg hu]
      have := key a ha (-b).toNat
      have := mul_pow_ge (a := t) (b := u) (by omega)
      omega
  · rw [scale_nonneg hb, scale_nonneg (by omega)]
    exact mul_pow_mono ha hat hbu

/-- a corner of `<<` -/
theorem crShl_in {R : ITy} (hR : R.Ok) {a b : Int} (ia : R.In a) :
    crShl R (castTo R a) (castTo R b) = .ret (
      if R.signed = false ∧ a ≠ 0 ∧ b < 0 then .err .range_error
      else if R.max < scale a b then .err .positive_overflow_error
      else if a < 0 ∧ 0 < b ∧ scale a b ≤ R.min then .err .negative_overflow_error
      else .ok (scale a b)) := by
  have hz := R.min_nonpos; have hm := R.max_ge
  have i1 := ia.1; have i2 := ia.2
  rw [castTo_of_in ia]
  rcases castTo_cases R b with ⟨eb, ib⟩ | ⟨eb, ib⟩ | ⟨eb, ib, sb⟩ | ⟨eb, sb, ib⟩ <;> rw [eb]
  · have : ¬ (R.signed = false ∧ a ≠ 0 ∧ b < 0) := fun h => by have := ib.nonneg h.1; omega
    rw [if_neg this]
    exact crShl_ok hR ia ib 0
  · rw [if_neg (show ¬ (R.signed = false ∧ a ≠ 0 ∧ b < 0) by omega)]
    unfold crShl crShift
    rw [prodFlag_pos]
    rcases Int.lt_trichotomy a 0 with h | h | h
    · have hn := scale_nonpos (a := a) (b := b) (by omega)
      have e := ITy.min_eq R
      have hb : scale a b ≤ R.min := by
        rw [scale_nonneg (by omega)]
        have h1 := lt_two_pow_toNat (k := b) (by omega)
        split at e
        · nlinarith
        · omega
      rw [prodFlag_lt ia h, if_neg (show ¬ (R.max < scale a b) by omega), if_pos (show a < 0 ∧ 0 < b ∧ scale a b ≤ R.min from ⟨h, by omega, hb⟩)]; rfl
    · subst h
      rw [scale_zero_left, prodFlag_zero, if_neg (show ¬ (R.max < 0) by omega),
        if_neg (show ¬ ((0 : Int) < 0 ∧ 0 < b ∧ 0 ≤ R.min) by omega)]; rfl
    · rw [prodFlag_gt ia h, if_pos (show R.max < scale a b by rw [scale_nonneg (by omega)]; exact mul_pow_big h ib)]; rfl
  · have hb : b < 0 := by omega
    have e := ITy.min_eq R
    rw [sb, if_pos rfl] at e
    have h1 := lt_two_pow_toNat (k := -b) (by omega)
    have hs : scale a b = 0 := by
      rw [scale_neg hb]
      exact tdiv_eq_zero_of_abs (by omega) (by omega) (by omega) (by omega)
    rw [if_neg (by rw [sb]; simp), hs, if_neg (show ¬ (R.max < 0) by omega),
      if_neg (show ¬ (a < 0 ∧ 0 < b ∧ 0 ≤ R.min) by omega)]
    unfold crShl crShift
    rw [prodFlag_neg]
    rcases Int.lt_trichotomy a 0 with h | h | h
    · rw [prodFlag_lt ia h]; rfl
    · subst h; rw [prodFlag_zero]; rfl
    · rw [prodFlag_gt ia h]; rfl
  · by_cases h0 : a = 0
    · subst h0
      rw [scale_zero_left, if_neg (by simp), if_neg (show ¬ (R.max < 0) by omega),
        if_neg (show ¬ ((0 : Int) < 0 ∧ 0 < b ∧ 0 ≤ R.min) by omega)]
      unfold crShl crShift
      rw [prodFlag_zero]; rfl
    · rw [if_pos ⟨sb, h0, ib⟩, ← eb, ← castTo_of_in ia]
      exact crShl_vague sb h0 (Or.inr ib)

theorem excPossible_eq {R : ITy} {ri : Itv CR} (pl : Proper R ri.l) (pu : Proper R ri.u) :
    excPossible R ri = false ↔ (∃ v, ri.l = .ok v) ∧ ∃ v, ri.u = .ok v := by
  constructor
  · intro h
    obtain ⟨⟨v, h1, _⟩, ⟨w, h2, _⟩⟩ := excPossible_false h pl pu
    exact ⟨⟨v, h1⟩, ⟨w, h2⟩⟩
  · rintro ⟨⟨v, h1⟩, ⟨w, h2⟩⟩
    rcases ri with ⟨l, u⟩
    dsimp only at h1 h2 pl pu
    subst h1; subst h2
    exact excPossible_values pl pu

/-- when `<<` is not checked at run time -/
theorem shl_unchecked {R : ITy} (hR : R.Ok) {T U : Opd} (hT : T.Wf) (hU : U.Wf) (i1 : R.In T.lo) (i2 : R.In T.hi) :
    (staticExc opShl R T U = false ↔ ShlUnchecked R T U) ∧ ∃ ri, resItv itvShl R T U = .ret ri := by
  have hz := R.min_nonpos; have hm := R.max_ge
  have hle : T.lo ≤ T.hi := hT.2.2.2.1
  have hleU : U.lo ≤ U.hi := hU.2.2.2.1
  have j1 := i1.1; have j2 := i1.2; have j3 := i2.1; have j4 := i2.2
  have e1 := crShl_in (b := U.lo) hR i1
  have e2 := crShl_in (b := U.hi) hR i1
  have e3 := crShl_in (b := U.lo) hR i2
  have e4 := crShl_in (b := U.hi) hR i2
  have pr : ∀ a b, R.In a → ∀ c, crShl R (castTo R a) (castTo R b) = .ret c → Proper R c := fun a b _ c h => by
    obtain ⟨r, e, p, _⟩ := crShl_val hR a b
    rw [e] at h; cases h; exact p
  have p1 := pr _ _ i1 _ e1
  have p2 := pr _ _ i1 _ e2
  have p3 := pr _ _ i2 _ e3
  have p4 := pr _ _ i2 _ e4
  generalize hc1 : (if R.signed = false ∧ T.lo ≠ 0 ∧ U.lo < 0 then CR.err .range_error
      else if R.max < scale T.lo U.lo then .err .positive_overflow_error
      else if T.lo < 0 ∧ 0 < U.lo ∧ scale T.lo U.lo ≤ R.min then .err .negative_overflow_error
      else .ok (scale T.lo U.lo)) = c1 at e1 p1
  generalize hc2 : (if R.signed = false ∧ T.lo ≠ 0 ∧ U.hi < 0 then CR.err .range_error
      else if R.max < scale T.lo U.hi then .err .positive_overflow_error
      else if T.lo < 0 ∧ 0 < U.hi ∧ scale T.lo U.hi ≤ R.min then .err .negative_overflow_error
      else .ok (scale T.lo U.hi)) = c2 at e2 p2
  generalize hc3 : (if R.signed = false ∧ T.hi ≠ 0 ∧ U.lo < 0 then CR.err .range_error
      else if R.max < scale T.hi U.lo then .err .positive_overflow_error
      else if T.hi < 0 ∧ 0 < U.lo ∧ scale T.hi U.lo ≤ R.min then .err .negative_overflow_error
      else .ok (scale T.hi U.lo)) = c3 at e3 p3
  generalize hc4 : (if R.signed = false ∧ T.hi ≠ 0 ∧ U.hi < 0 then CR.err .range_error
      else if R.max < scale T.hi U.hi then .err .positive_overflow_error
      else if T.hi < 0 ∧ 0 < U.hi ∧ scale T.hi U.hi ≤ R.min then .err .negative_overflow_error
      else .ok (scale T.hi U.hi)) = c4 at e4 p4
  have hp : ∀ c ∈ [c1, c2, c3, c4], Proper R c := by
    intro c hc; simp at hc; rcases hc with rfl | rfl | rfl | rfl <;> assumption
  obtain ⟨m, M, e, hmem, hMem, hh⟩ := minmax_cr c1 [c2, c3, c4] hp
  have er : resItv itvShl R T U = .ret ⟨m, M⟩ := by
    apply resItv_of hT hU
    simp only [itvShl, corners, minmax4, e1, e2, e3, e4, e, Out.ret_bind]
  refine ⟨?_, _, er⟩
  have es : staticExc opShl R T U = excPossible R ⟨m, M⟩ := by
    unfold staticExc; rw [show resItv opShl.itv R T U = _ from er]
  rw [es, excPossible_eq (hp m hmem) (hp M hMem)]
  dsimp only
  constructor
  · rintro ⟨⟨v, rfl⟩, ⟨w, rfl⟩⟩
    have iv : R.In v := hp _ hmem
    have iw : R.In w := hp _ hMem
    have nv1 : ¬ Vague c1 := by
      rcases hh with ⟨va, hm, _⟩ | ⟨va, _⟩
      · rw [← hm] at va; exact absurd va (not_vague_ok v)
      · exact va
    obtain ⟨_, _, _, hh⟩ := hh.resolve_left (fun h => nv1 h.1)
    refine ⟨?_, ?_, ?_⟩
    · by_contra hc
      apply nv1
      rw [← hc1, if_pos ⟨by rcases hs : R.signed with _ | _ <;> simp_all, by omega, by omega⟩]
      exact vague_range
    · by_contra hc
      have hpos : 0 < T.hi := by
        by_contra hn
        have := scale_nonpos (a := T.hi) (b := U.hi) (by omega); omega
      have hU0 : 0 ≤ U.hi := by
        by_contra hn
        rw [scale_neg (by omega)] at hc
        have := tdiv_nonneg_bounds (a := T.hi) (b := 2 ^ (-U.hi).toNat) (by omega) (two_pow_pos _); omega
      rw [if_neg (by omega), if_pos (by omega)] at hc4
      have := (hh c4 (by simp) (by rw [← hc4]; exact not_vague_pos)).2
      rw [← hc4, key_pos, key_ok] at this
      have := iw.2; omega
    · rintro ⟨h1, h2, h3⟩
      have hn := scale_nonpos (a := T.lo) (b := U.hi) (by omega)
      rw [if_neg (by omega), if_neg (by omega), if_pos ⟨h1, h2, h3⟩] at hc2
      have := (hh c2 (by simp) (by rw [← hc2]; exact not_vague_neg)).1
      rw [← hc2, key_neg, key_ok] at this
      have := iv.1; omega
  · rintro ⟨h1, h2, h3⟩
    have nv1 : ¬ Vague c1 := by
      rw [← hc1, if_neg (by rintro ⟨a, b, c⟩; rw [a] at h1; simp at h1; omega)]
      split_ifs
      · exact not_vague_pos
      · exact not_vague_neg
      · exact not_vague_ok _
    obtain ⟨_, nm, nM, _⟩ := hh.resolve_left (fun h => nv1 h.1)
    have key : ∀ a b c, T.lo ≤ a → a ≤ T.hi → b ≤ U.hi →
        (if R.signed = false ∧ a ≠ 0 ∧ b < 0 then CR.err .range_error
          else if R.max < scale a b then .err .positive_overflow_error
          else if a < 0 ∧ 0 < b ∧ scale a b ≤ R.min then .err .negative_overflow_error
          else .ok (scale a b)) = c → ¬ Vague c → ∃ v, c = .ok v := by
      intro a b c ha ha' hb hc hv
      split_ifs at hc with k1 k2 k3
      · rw [← hc] at hv; exact absurd vague_range hv
      · exfalso
        rcases Int.lt_or_le 0 a with h0 | h0
        · have := scale_mono (a := a) (b := b) (t := T.hi) (u := U.hi) (by omega) ha' hb; omega
        · have := scale_nonpos (a := a) (b := b) h0; omega
      · exfalso
        obtain ⟨k3, k4, k5⟩ := k3
        refine h3 ⟨by omega, by omega, ?_⟩
        rw [scale_nonneg (by omega)] at k5 ⊢
        have := mul_pow_mono (a := -a) (b := b) (t := -T.lo) (u := U.hi) (by omega) (by omega) hb
        rw [Int.neg_mul, Int.neg_mul] at this
        omega
      · exact ⟨_, hc.symm⟩
    have all : ∀ c ∈ [c1, c2, c3, c4], ¬ Vague c → ∃ v, c = .ok v := by
      intro c hc hv
      simp at hc
      rcases hc with rfl | rfl | rfl | rfl
      · exact key _ _ _ (by omega) (by omega) hleU hc1 hv
      · exact key _ _ _ (by omega) (by omega) (Int.le_refl _) hc2 hv
      · exact key _ _ _ (by omega) (by omega) hleU hc3 hv
      · exact key _ _ _ (by omega) (by omega) (Int.le_refl _) hc4 hv
    exact ⟨all m hmem nm, all M hMem nM⟩

/-! ### right shift -/

theorem crShr_fullWidth {R : ITy} (hR : R.Ok) {a b : Int} (ia : R.In a) (h : ShrBad R a b) :
    crShr R (castTo R a) (castTo R b) = .fault .ub := by
  rcases crShr_bad hR h with g | g
  · exact g
  · rcases (crShr_ret hR g).2 with ⟨k, _⟩ | ⟨_, _, k⟩ | ⟨k, _⟩ | ⟨k, _⟩
    · cases k
    · have := k ia; have := h.2.2.1; omega
    · cases k
    · exact absurd k not_vague_pos

theorem shr_rejected {R : ITy} (hR : R.Ok) (hl : Arch.intLg ≤ R.lg) {T U : Opd} (hT : T.Wf) (hU : U.Wf) (i2 : R.In T.hi)
    (h : ShrRejected R T U) : resItv itvShr R T U = .fault .illFormed := by
  obtain ⟨hs, h0, hb⟩ := h
  rcases itvShr_corners hR T.lo T.hi U.lo U.hi with ⟨f, e⟩ | ⟨c1, c2, c3, c4, ri, e1, e2, e3, e4, _⟩
  · apply static_fault (f := f)
    rw [castItv_eq hT, castItv_eq hU]
    exact e
  · rcases hb with hb | hb
    · rw [crShr_fullWidth hR i2 ⟨hs, hl, hb, h0⟩] at e3; cases e3
    · rw [crShr_fullWidth hR i2 ⟨hs, hl, hb, h0⟩] at e4; cases e4

theorem shr_accepted {R : ITy} (hR : R.Ok) {T U : Opd} (hT : T.Wf) (hU : U.Wf) (h : ¬ ShrRejected R T U) :
    ∃ ri, resItv itvShr R T U = .ret ri := by
  have hle : T.lo ≤ T.hi := hT.2.2.2.1
  have key : ∀ a b, a ≤ T.hi → b = U.lo ∨ b = U.hi →
      ∃ c, crShr R (castTo R a) (castTo R b) = .ret c ∧ Proper R c := fun a b ha hb => by
    obtain ⟨r, e, p, _⟩ := crShr_val hR a b fun g => h ⟨g.1, by have := g.2.2.2; omega, by
      rcases hb with rfl | rfl
      · exact Or.inl g.2.2.1
      · exact Or.inr g.2.2.1⟩
    exact ⟨r, e, p⟩
  obtain ⟨c1, e1, p1⟩ := key T.lo U.lo hle (Or.inl rfl)
  obtain ⟨c2, e2, p2⟩ := key T.lo U.hi hle (Or.inr rfl)
  obtain ⟨c3, e3, p3⟩ := key T.hi U.lo (Int.le_refl _) (Or.inl rfl)
  obtain ⟨c4, e4, p4⟩ := key T.hi U.hi (Int.le_refl _) (Or.inr rfl)
  obtain ⟨ri, e, _⟩ := corners_spec (R := R) (op := crShr R) (t := ⟨castTo R T.lo, castTo R T.hi⟩)
    (u := ⟨castTo R U.lo, castTo R U.hi⟩) e1 e2 e3 e4 p1 p2 p3 p4
  exact ⟨ri, resItv_of hT hU e⟩

/-- the decision of `>>` when negative counts are overlooked -/
theorem shr_overlooked {R : ITy} (hR : R.Ok) {T U : Opd} (hT : T.Wf) (hU : U.Wf) (hs : R.signed = false) (i2 : R.In T.hi)
    (h0 : T.lo = 0) (h1 : U.lo < 0) {ri : Itv CR} (e : resItv itvShr R T U = .ret ri) :
    shrExcPossible R ⟨castTo R T.lo, castTo R T.hi⟩ ⟨castTo R U.lo, castTo R U.hi⟩ ri = decide ((R.digits : Int) < U.hi) := by
  have hz := R.min_nonpos; have hm := R.max_ge
  have e' : itvShr R ⟨castTo R T.lo, castTo R T.hi⟩ ⟨castTo R U.lo, castTo R U.hi⟩ = .ret ri := by
    unfold resItv at e
    rw [castItv_eq hT, castItv_eq hU] at e
    simp only [Out.ret_bind] at e
    cases g : itvShr R ⟨castTo R T.lo, castTo R T.hi⟩ ⟨castTo R U.lo, castTo R U.hi⟩ with
    | ret x => rw [g] at e; exact e
    | thrown x => rw [g] at e; cases e
    | fault x => rw [g] at e; cases e
  have zero : ∀ b, crShr R (castTo R T.lo) (castTo R b) = .ret (.ok 0) := fun b => by
    rw [h0, castTo_of_in R.in_zero]
    unfold crShr crShift
    rw [prodFlag_zero]
    rcases castTo_cases R b with ⟨eb, ib⟩ | ⟨eb, ib⟩ | ⟨eb, ib, sb⟩ | ⟨eb, sb, ib⟩ <;> rw [eb]
    · rcases Int.lt_trichotomy b 0 with h | h | h
      · rw [prodFlag_lt ib h]; rfl
      · subst h; rw [prodFlag_zero]; rfl
      · rw [prodFlag_gt ib h]; rfl
    · rw [prodFlag_pos]; rfl
    · rw [prodFlag_neg]; rfl
    · rfl
  rcases itvShr_corners hR T.lo T.hi U.lo U.hi with ⟨f, g⟩ | ⟨c1, c2, c3, c4, ri', e1, e2, e3, e4, _⟩
  · rw [e'] at g; cases g
  have n3 : ∀ b c, crShr R (castTo R T.hi) (castTo R b) = .ret c → ¬ Vague c → ∃ v, c = .ok v := fun b c hc hv => by
    have ih := i2.nonneg hs
    rcases (crShr_ret hR hc).2 with ⟨k, _⟩ | ⟨k, k1, k2⟩ | ⟨k, k1, _⟩ | ⟨k, _⟩
    · exact ⟨_, k⟩
    · have := k2 i2
      rw [crShr_vague hs (by omega) (Or.inr this)] at hc
      cases hc; exact absurd vague_range hv
    · omega
    · exact absurd k hv
  have p1 := (crShr_ret hR e1).1
  have p2 := (crShr_ret hR e2).1
  have p3 := (crShr_ret hR e3).1
  have p4 := (crShr_ret hR e4).1
  have hp : ∀ c ∈ [c1, c2, c3, c4], Proper R c := by
    intro c hc; simp at hc; rcases hc with rfl | rfl | rfl | rfl <;> assumption
  obtain ⟨m, M, em, hmem, hMem, hh⟩ := minmax_cr c1 [c2, c3, c4] hp
  have hri : ri = ⟨m, M⟩ := by
    simp only [itvShr, corners, minmax4, e1, e2, e3, e4, em, Out.ret_bind] at e'
    exact (Out.ret.inj e').symm
  subst hri
  have k1 := zero U.lo
  rw [e1] at k1; obtain rfl := Out.ret.inj k1
  have k2 := zero U.hi
  rw [e2] at k2; obtain rfl := Out.ret.inj k2
  obtain ⟨_, nm, nM, _⟩ := hh.resolve_left (fun h => not_vague_ok 0 h.1)
  have all : ∀ c ∈ [CR.ok 0, CR.ok 0, c3, c4], ¬ Vague c → ∃ v, c = .ok v := by
    intro c hc hv
    simp at hc
    rcases hc with rfl | rfl | rfl
    · exact ⟨_, rfl⟩
    · exact n3 _ _ e3 hv
    · exact n3 _ _ e4 hv
  obtain ⟨x, rfl⟩ := all m hmem nm
  obtain ⟨y, rfl⟩ := all M hMem nM
  have vl : castTo R U.lo = .err .domain_error := by
    rcases castTo_cases R U.lo with ⟨eb, ib⟩ | ⟨eb, ib⟩ | ⟨eb, ib, sb⟩ | ⟨eb, sb, ib⟩
    · have := ib.nonneg hs; omega
    · omega
    · rw [hs] at sb; cases sb
    · exact eb
  have hd := in_digits R
  unfold shrExcPossible
  simp only [T3.or_toBool]
  rw [vl, h0, castTo_of_in R.in_zero, conv_of_in hd]
  change (((((crLt R (.ok (R.digits : Int)) (castTo R U.hi)).toBool || (crLt R (.ok 0) (.ok 0)).toBool) || false) || false) || false) = _
  rw [crLt_ok R.in_zero R.in_zero, decide_eq_false (by omega)]
  have hdb := hd.2
  rcases castTo_cases R U.hi with ⟨eb, ib⟩ | ⟨eb, ib⟩ | ⟨eb, ib, sb⟩ | ⟨eb, sb, ib⟩ <;> rw [eb]
  · rw [crLt_ok hd ib]; by_cases g : (R.digits : Int) < U.hi <;> simp [g, T3.ofBool, T3.toBool]
  · rw [decide_eq_true (by omega)]; rfl
  · rw [hs] at sb; cases sb
  · rw [decide_eq_false (by omega)]; rfl

/-! ### built-in shifts -/

omit [Arch] in
theorem bind_notThrown {x : Out Int} {f : Int → Int} (h : ∀ e, x ≠ .thrown e) (e : Err) :
    (do let v ← x; Out.ret (f v)) ≠ .thrown e := by
  cases x with
  | ret v => exact nofun
  | thrown e => exact absurd rfl (h e)
  | fault k => exact nofun

omit [Arch] in
theorem bind_notIll {x : Out Int} {f : Int → Int} (h : x ≠ .fault .illFormed) :
    (do let v ← x; Out.ret (f v)) ≠ .fault .illFormed := by
  cases x with
  | ret v => exact nofun
  | thrown e => exact nofun
  | fault k => intro g; apply h; injection g with g; rw [g]

theorem plainShl_quiet (R : ITy) (t u : Int) :
    (∀ e, runPlain opShl R t u ≠ .thrown e) ∧ runPlain opShl R t u ≠ .fault .illFormed := by
  refine ⟨bind_notThrown ?_, bind_notIll ?_⟩ <;>
    (intros; show cShl _ _ _ _ ≠ _; unfold cShl; dsimp only; split_ifs <;> exact nofun)

theorem plainShr_quiet (R : ITy) (t u : Int) :
    (∀ e, runPlain opShr R t u ≠ .thrown e) ∧ runPlain opShr R t u ≠ .fault .illFormed := by
  refine ⟨bind_notThrown ?_, bind_notIll ?_⟩ <;>
    (intros; show cShr _ _ _ _ ≠ _; unfold cShr; dsimp only; split_ifs <;> exact nofun)

end
end Verif
