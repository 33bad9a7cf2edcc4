import Verif.Proofs.SafeCmp

/-! Division and modulus of safe types. -/

namespace Verif
open Spec
section
variable [Arch]

/-- `/` on checked results: division by the value zero is an error -/
theorem crDiv_by_zero {R : ITy} {c : CR} (pc : Proper R c) :
    ∃ e, crDiv R c (.ok 0) = .ret (.err e) ∧ e ≠ .success := by
  have pz : prodFlag R (.ok 0) = .zero := by rw [prodFlag_ok R.in_zero]; rfl
  rcases c.cases4 with ⟨a, rfl⟩ | rfl | rfl | hv
  · have ha : R.In a := pc
    unfold crDiv
    rw [pz, prodFlag_ok ha]
    split_ifs
    · exact ⟨_, rfl, by decide⟩
    · exact ⟨_, rfl, by decide⟩
    · exact ⟨_, rfl, by decide⟩
  · unfold crDiv; rw [pz]; exact ⟨_, rfl, by decide⟩
  · unfold crDiv; rw [pz]; exact ⟨_, rfl, by decide⟩
  · exact ⟨_, crDiv_vague (Or.inl hv), by decide⟩

theorem crDiv_total {R : ITy} {c d : CR} (pc : Proper R c) (pd : Proper R d) :
    ∃ e, crDiv R c d = .ret e ∧ Proper R e ∧ ((Vague c ∨ Vague d) → Vague e) := by
  by_cases h : d = .ok 0
  · subst h
    obtain ⟨e, h1, h2⟩ := crDiv_by_zero pc
    refine ⟨_, h1, h2, ?_⟩
    rintro (h | h)
    · rw [crDiv_vague (Or.inl h)] at h1
      rw [← (Out.ret.inj h1)]; exact ⟨_, rfl, by decide, by decide⟩
    · exact absurd h (not_vague_ok _)
  · obtain ⟨e, h1, h2, h3, _⟩ := crDiv_ex pc pd h
    exact ⟨e, h1, h2, h3⟩

/-- the test that the denominator range excludes zero -/
def thenCond (R : ITy) (u : Itv CR) : Bool := ((crLt R u.u (.ok 0)).or (crGt R u.l (.ok 0))).toBool

theorem excludes_of_then {R : ITy} {u : Itv CR} (h : thenCond R u = true) :
    (u.excludesPt (crCmp R) (.ok 0)).toBool = true := by
  unfold thenCond at h
  change ((crLt R u.u (.ok 0)).or (crLt R (.ok 0) u.l)).toBool = true at h
  change ((crLt R (.ok 0) u.l).or (crLt R u.u (.ok 0))).toBool = true
  rw [T3.or_toBool] at *; rw [Bool.or_comm]; exact h

/-- the denominator range `U` can be represented in `R`, except possibly for negative values in an unsigned `R` -/
def Fits (R : ITy) (T : Opd) : Prop := T.hi ≤ R.max ∧ (R.signed = true → R.min ≤ T.lo)

instance (R : ITy) (T : Opd) : Decidable (Fits R T) := inferInstanceAs (Decidable (_ ∧ _))

omit [Arch] in
theorem Fits.in_of_nonvague {R : ITy} {T : Opd} (h : Fits R T) (hT : T.lo ≤ T.hi) (hv : ¬ Vague (castTo R T.lo)) :
    R.In T.lo ∧ R.In T.hi := by
  have h1 := h.1
  rw [castTo_vague] at hv
  have e := ITy.min_eq R
  rcases hs : R.signed with _ | _
  · rw [hs] at e; simp at e
    have : 0 ≤ T.lo := by
      by_contra hh; exact hv ⟨hs, by omega⟩
    exact ⟨⟨by omega, by omega⟩, ⟨by omega, by omega⟩⟩
  · have := h.2 hs
    exact ⟨⟨by omega, by omega⟩, ⟨by omega, by omega⟩⟩

/-- a denominator that passes the test is in `R` and away from zero -/
theorem then_fits {R : ITy} {U : Opd} (hU : U.lo ≤ U.hi) (hf : Fits R U)
    (h : thenCond R ⟨castTo R U.lo, castTo R U.hi⟩ = true) :
    (R.In U.lo ∧ R.In U.hi) ∧ (0 < U.lo ∨ U.hi < 0) := by
  have nv : ¬ Vague (castTo R U.lo) := by
    intro hv
    obtain ⟨hs, hneg⟩ := castTo_vague.1 hv
    unfold thenCond at h
    rw [T3.or_toBool, Bool.or_eq_true] at h
    rcases h with h | h
    · by_cases hh : 0 ≤ U.hi
      · have hin : R.In U.hi := ⟨by have := R.min_nonpos; omega, hf.1⟩
        change (crLt R (castTo R U.hi) (.ok 0)).toBool = true at h
        rw [castTo_of_in hin, crLt_toBool hin R.in_zero] at h
        simp at h; omega
      · have v2 : Vague (castTo R U.hi) := castTo_vague.2 ⟨hs, by omega⟩
        have := crLtB_vague (R := R) (a := castTo R U.hi) (b := .ok 0) (Or.inl v2)
        unfold crLtB at this
        change (crLt R (castTo R U.hi) (.ok 0)).toBool = true at h
        rw [this] at h; exact absurd h (by decide)
    · have := crLtB_vague (R := R) (a := .ok 0) (b := castTo R U.lo) (Or.inr hv)
      unfold crLtB at this
      change (crLt R (.ok 0) (castTo R U.lo)).toBool = true at h
      rw [this] at h; exact absurd h (by decide)
  have hin := hf.in_of_nonvague hU nv
  refine ⟨hin, ?_⟩
  unfold thenCond at h
  rw [castTo_of_in hin.1, castTo_of_in hin.2, T3.or_toBool, Bool.or_eq_true] at h
  rcases h with h | h
  · change (crLt R (.ok U.hi) (.ok 0)).toBool = true at h
    rw [crLt_toBool hin.2 R.in_zero] at h; right; simpa using h
  · change (crLt R (.ok 0) (.ok U.lo)).toBool = true at h
    rw [crLt_toBool R.in_zero hin.1] at h; left; simpa using h

/-- a denominator that fails the test contains zero or has a lower end of unknown position -/
theorem else_includes {R : ITy} {U : Opd} (hU : U.lo ≤ U.hi)
    (h : thenCond R ⟨castTo R U.lo, castTo R U.hi⟩ = false) :
    ((⟨castTo R U.lo, castTo R U.hi⟩ : Itv CR).includesPt (crCmp R) (.ok 0)).toBool = true ∨ Vague (castTo R U.lo) := by
  by_cases v : Vague (castTo R U.lo)
  · exact Or.inr v
  · left
    have v2 : ¬ Vague (castTo R U.hi) := fun hh =>
      v (castTo_vague.2 ⟨(castTo_vague.1 hh).1, by have := (castTo_vague.1 hh).2; omega⟩)
    unfold thenCond at h
    rw [T3.or_toBool, Bool.or_eq_false_iff] at h
    have p0 : Proper R (.ok 0) := R.in_zero
    have h1 : crLtB R (castTo R U.hi) (.ok 0) = false := h.1
    have h2 : crLtB R (.ok 0) (castTo R U.lo) = false := h.2
    show (((crLt R (.ok 0) (castTo R U.lo)).not).and ((crLt R (castTo R U.hi) (.ok 0)).not)).toBool = true
    have def1 : ∀ {a b : CR}, Proper R a → Proper R b → ¬ Vague a → ¬ Vague b → (∃ v, b = .ok v) →
        crLtB R a b = false → crLt R a b = .ff := by
      intro a b pa pb va vb hb hh
      have hm := R.min_le_max
      obtain ⟨w, rfl⟩ := hb
      rcases a.cases4 with ⟨x, rfl⟩ | rfl | rfl | hv
      · unfold crLtB at hh
        rw [crLt_ok pa pb] at *
        revert hh; cases decide (x < w) <;> decide
      · exact Bool.noConfusion (show true = false from hh)
      · rfl
      · exact absurd hv va
    have def2 : ∀ {a b : CR}, Proper R a → Proper R b → ¬ Vague a → ¬ Vague b → (∃ v, a = .ok v) →
        crLtB R a b = false → crLt R a b = .ff := by
      intro a b pa pb va vb ha hh
      obtain ⟨w, rfl⟩ := ha
      rcases b.cases4 with ⟨x, rfl⟩ | rfl | rfl | hv
      · unfold crLtB at hh
        rw [crLt_ok pa pb] at *
        revert hh; cases decide (w < x) <;> decide
      · rfl
      · exact Bool.noConfusion (show true = false from hh)
      · exact absurd hv vb
    rw [def1 castTo_proper p0 v2 (not_vague_ok _) ⟨_, rfl⟩ h1, def2 p0 castTo_proper (not_vague_ok _) v ⟨_, rfl⟩ h2]
    rfl

omit [Arch] in
theorem minus_one_proper (R : ITy) : Proper R (.ok (conv R (-1))) := conv_in R (-1)

/-- the interval of `/` exists; in the first branch it is the interval quotient -/
theorem divItv_total {R : ITy} {t u : Itv CR} (ptl : Proper R t.l) (ptu : Proper R t.u) (pul : Proper R u.l)
    (puu : Proper R u.u) :
    ∃ ri, divItv R t u = .ret ri ∧ Proper R ri.l ∧ Proper R ri.u ∧
      ((Vague t.l ∨ Vague u.l) → Vague ri.l) := by
  obtain ⟨c1, e1, p1, g1⟩ := crDiv_total ptl pul
  obtain ⟨c4, e4, p4, _⟩ := crDiv_total ptl puu
  obtain ⟨c5, e5, p5, _⟩ := crDiv_total ptu pul
  obtain ⟨c8, e8, p8, _⟩ := crDiv_total ptu puu
  by_cases h : thenCond R u = true
  · have hp : ∀ c ∈ [c1, c4, c5, c8], Proper R c := by
      intro c hc; simp at hc; rcases hc with rfl | rfl | rfl | rfl <;> assumption
    obtain ⟨m, M, e, hmem, hMem, hh⟩ := minmax_cr c1 [c4, c5, c8] hp
    refine ⟨⟨m, M⟩, ?_, hp m hmem, hp M hMem, ?_⟩
    · unfold divItv divModItv
      change (if thenCond R u = true then _ else _) = _
      rw [if_pos h]
      simp only [itvDiv, excludes_of_then h, assertThat, if_true, Out.ret_bind, corners, minmax4, e1, e4, e5, e8, e]
    · intro v
      have := g1 v
      rcases hh with ⟨va, rfl, _⟩ | ⟨va, _⟩
      · exact va
      · exact absurd this va
  · obtain ⟨c2, e2, p2, _⟩ := crDiv_total ptl (minus_one_proper R)
    obtain ⟨c3, e3, p3, _⟩ := crDiv_total (R := R) (d := .ok 1) ptl R.in_one
    obtain ⟨c6, e6, p6, _⟩ := crDiv_total ptu (minus_one_proper R)
    obtain ⟨c7, e7, p7, _⟩ := crDiv_total (R := R) (d := .ok 1) ptu R.in_one
    have hp : ∀ c ∈ [c1, c2, c3, c4, c5, c6, c7, c8], Proper R c := by
      intro c hc; simp at hc
      rcases hc with rfl | rfl | rfl | rfl | rfl | rfl | rfl | rfl <;> assumption
    obtain ⟨m, M, e, hmem, hMem, hh⟩ := minmax_cr c1 [c2, c3, c4, c5, c6, c7, c8] hp
    refine ⟨⟨m, M⟩, ?_, hp m hmem, hp M hMem, ?_⟩
    · unfold divItv divModItv
      change (if thenCond R u = true then _ else _) = _
      rw [if_neg h]
      simp only [Out.ret_bind, e1, e2, e3, e4, e5, e6, e7, e8, e]
    · intro v
      have := g1 v
      rcases hh with ⟨va, rfl, _⟩ | ⟨va, _⟩
      · exact va
      · exact absurd this va

theorem resItv_of {f : ITy → Itv CR → Itv CR → Out (Itv CR)} {R : ITy} {T U : Opd} {ri : Itv CR} (hT : T.Wf) (hU : U.Wf)
    (h : f R ⟨castTo R T.lo, castTo R T.hi⟩ ⟨castTo R U.lo, castTo R U.hi⟩ = .ret ri) : resItv f R T U = .ret ri := by
  apply static_ret
  rw [castItv_eq hT, castItv_eq hU]
  exact h

omit [Arch] in
theorem exc_of_vague {c : CR} (h : Vague c) (hp : ∀ R : ITy, Proper R c → True) (R : ITy) (pc : Proper R c) :
    c.exception = true := by
  obtain ⟨e, rfl, _⟩ := h
  have : e ≠ .success := pc
  simp [CR.exception, this]

/-- when no exception is possible in a division whose denominator range fits `R` -/
theorem div_static {R : ITy} {T U : Opd} (hT : T.Wf) (hU : U.Wf) (hf : Fits R U) {ri : Itv CR}
    (e : divItv R ⟨castTo R T.lo, castTo R T.hi⟩ ⟨castTo R U.lo, castTo R U.hi⟩ = .ret ri)
    (h : divExcPossible R ⟨castTo R U.lo, castTo R U.hi⟩ ri = false) {t u : Int} (ht : T.Has t) (hu : U.Has u) :
    R.In t ∧ R.In u ∧ u ≠ 0 ∧ R.In (t.tdiv u) := by
  unfold divExcPossible at h
  simp only [Bool.or_eq_false_iff] at h
  obtain ⟨⟨hinc, hl⟩, hu'⟩ := h
  obtain ⟨ri', e', pl, pu, hv⟩ := divItv_total (R := R) (t := ⟨castTo R T.lo, castTo R T.hi⟩)
    (u := ⟨castTo R U.lo, castTo R U.hi⟩) castTo_proper castTo_proper castTo_proper castTo_proper
  rw [e] at e'
  obtain rfl := Out.ret.inj e'
  have nv : ¬ (Vague (castTo R T.lo) ∨ Vague (castTo R U.lo)) := by
    intro hh
    have := exc_of_vague (hv hh) (fun _ _ => trivial) R pl
    rw [hl] at this; exact absurd this (by decide)
  have hth : thenCond R ⟨castTo R U.lo, castTo R U.hi⟩ = true := by
    by_contra hh
    rcases else_includes hU.2.2.2.1 (by simpa using hh) with g | g
    · rw [hinc] at g; exact absurd g (by decide)
    · exact nv (Or.inr g)
  obtain ⟨⟨u1, u2⟩, hne⟩ := then_fits hU.2.2.2.1 hf hth
  obtain ⟨v, hv1⟩ : ∃ v, ri.l = .ok v := by
    rcases hc : ri.l with v | x
    · exact ⟨v, rfl⟩
    · rw [hc] at hl pl; have : x ≠ .success := pl; simp [CR.exception, this] at hl
  obtain ⟨w, hw1⟩ : ∃ v, ri.u = .ok v := by
    rcases hc : ri.u with v | x
    · exact ⟨v, rfl⟩
    · rw [hc] at hu' pu; have : x ≠ .success := pu; simp [CR.exception, this] at hu'
  have iv : R.In v := by rw [hv1] at pl; exact pl
  have iw : R.In w := by rw [hw1] at pu; exact pu
  -- the corners
  have cor : ∀ x, x = T.lo ∨ x = T.hi → (castTo R x = .err .negative_overflow_error ∨
      castTo R x = .err .positive_overflow_error) → False := by
    intro x hx hm
    obtain ⟨c1, e1, p1, g1⟩ := crDiv_total (R := R) (castTo_proper (x := T.lo)) (castTo_proper (x := U.lo))
    obtain ⟨c4, e4, p4, _⟩ := crDiv_total (R := R) (castTo_proper (x := T.lo)) (castTo_proper (x := U.hi))
    obtain ⟨c5, e5, p5, _⟩ := crDiv_total (R := R) (castTo_proper (x := T.hi)) (castTo_proper (x := U.lo))
    obtain ⟨c8, e8, p8, _⟩ := crDiv_total (R := R) (castTo_proper (x := T.hi)) (castTo_proper (x := U.hi))
    have hp : ∀ c ∈ [c1, c4, c5, c8], Proper R c := by
      intro c hc; simp at hc; rcases hc with rfl | rfl | rfl | rfl <;> assumption
    obtain ⟨m, M, em, hmem, hMem, hh⟩ := minmax_cr c1 [c4, c5, c8] hp
    have : divItv R ⟨castTo R T.lo, castTo R T.hi⟩ ⟨castTo R U.lo, castTo R U.hi⟩ = .ret ⟨m, M⟩ := by
      unfold divItv divModItv
      change (if thenCond R _ = true then _ else _) = _
      rw [if_pos hth]
      simp only [itvDiv, excludes_of_then hth, assertThat, if_true, Out.ret_bind, corners, minmax4, e1, e4, e5, e8, em]
    rw [e] at this
    obtain rfl := Out.ret.inj this
    obtain rfl : m = .ok v := hv1
    obtain rfl : M = .ok w := hw1
    rcases hh with ⟨va, hh, _⟩ | ⟨va, _, _, hh⟩
    · rw [← hh] at va; exact absurd va (not_vague_ok _)
    · have bad : ∀ c ∈ [c1, c4, c5, c8], c = .err .negative_overflow_error ∨ c = .err .positive_overflow_error → False := by
        intro c hc hcm
        have h1 := iv.1; have h2 := iw.2
        rcases hcm with rfl | rfl
        · have := hh _ hc not_vague_neg
          simp only [CR.key] at this; omega
        · have := hh _ hc not_vague_pos
          simp only [CR.key] at this; omega
      have u0 : U.lo ≠ 0 := by have := hU.2.2.2.1; omega
      have key : ∀ c, crDiv R (castTo R x) (castTo R U.lo) = .ret c →
          c = .err .negative_overflow_error ∨ c = .err .positive_overflow_error := by
        intro c hc
        rw [castTo_of_in u1] at hc
        rcases hm with hm | hm
        · rw [hm, crDiv_neg_ok u1 u0] at hc
          rw [← Out.ret.inj hc]; split_ifs <;> simp
        · rw [hm, crDiv_pos_ok u1 u0] at hc
          rw [← Out.ret.inj hc]; split_ifs <;> simp
      rcases hx with rfl | rfl
      · exact bad c1 (by simp) (key _ e1)
      · exact bad c5 (by simp) (key _ e5)
  have inx : ∀ x, x = T.lo ∨ x = T.hi → R.In x := by
    intro x hx
    rcases (castTo R x).cases4 with ⟨a, ha⟩ | ha | ha | ha
    · exact (castTo_ok ha).2
    · exact (cor x hx (Or.inl ha)).elim
    · exact (cor x hx (Or.inr ha)).elim
    · exfalso
      apply nv; left
      obtain ⟨hs, hn⟩ := castTo_vague.1 ha
      exact castTo_vague.2 ⟨hs, by have := hT.2.2.2.1; rcases hx with rfl | rfl <;> omega⟩
  have tin := in_between ⟨inx _ (Or.inl rfl), inx _ (Or.inr rfl)⟩ ht
  have uin := in_between ⟨u1, u2⟩ hu
  have une : u ≠ 0 := by have := hu.1; have := hu.2; omega
  refine ⟨tin, uin, une, ?_⟩
  have c1 := castTo_of_in (inx _ (Or.inl rfl)); have c2 := castTo_of_in (inx _ (Or.inr rfl))
  obtain ⟨i, ei, _, _, b1, b2⟩ := itvDiv_contains (R := R) (t := ⟨castTo R T.lo, castTo R T.hi⟩)
    (u := ⟨castTo R U.lo, castTo R U.hi⟩) (x := t) (y := u) castTo_proper castTo_proper castTo_proper castTo_proper
    (by rw [c1]; simp) (by rw [c2]; simp) (by rw [c2]; exact not_vague_ok _)
    (by rw [castTo_of_in u1]; simp) (by rw [castTo_of_in u2]; simp) (by rw [castTo_of_in u2]; exact not_vague_ok _)
    (excludes_of_then hth) (castTo_lower ht.1) (castTo_upper ht.2) (castTo_lower hu.1) (castTo_upper hu.2)
  have : divItv R ⟨castTo R T.lo, castTo R T.hi⟩ ⟨castTo R U.lo, castTo R U.hi⟩ = .ret i := by
    unfold divItv divModItv
    change (if thenCond R _ = true then _ else _) = _
    rw [if_pos hth, ei]
  rw [e] at this
  obtain rfl := Out.ret.inj this
  rw [hv1] at b1; rw [hw1] at b2
  have b1 : v ≤ t.tdiv u := b1
  have b2 : t.tdiv u ≤ w := b2
  exact ⟨by have := iv.1; omega, by have := iw.2; omega⟩

/-! ### the intermediate type -/

theorem tempBase_spec {R : ITy} (hR : R.Ok) (T U : Opd) :
    ∃ B, tempBase R T U = .ret B ∧ B.signed = R.signed ∧ B.Ok ∧ R.lg ≤ B.lg := by
  have hd := ITy.digits_unsigned (T := tUIntMax) rfl
  have hb : (tempBits R T U : Int) ≤ ((8 * 2 ^ Arch.maxLg : Nat) : Int) := by
    unfold tempBits
    have : tUIntMax.digits = 8 * 2 ^ Arch.maxLg := hd
    have := Nat.min_le_left tUIntMax.digits
      (Nat.max R.digits (Nat.max T.base.digits U.base.digits) + (if R.signed then 1 else 0))
    dsimp only
    have h3 : Nat.min tUIntMax.digits
      (Nat.max R.digits (Nat.max T.base.digits U.base.digits) + (if R.signed then 1 else 0)) ≤ tUIntMax.digits := this
    omega
  obtain ⟨B, e, hs, hok, hn, _⟩ := leastType_spec (s := R.signed) hb
  refine ⟨B, e, hs, hok, ?_⟩
  by_contra hlt
  have hlt : B.lg < R.lg := by omega
  have h1 := ITy.bits_lt hlt
  have h2 : R.bits ≤ tUIntMax.bits := by
    unfold ITy.bits; exact Nat.mul_le_mul_left _ (Nat.pow_le_pow_right (by decide) hR)
  have h3 : R.bits ≤ R.digits + (if R.signed then 1 else 0) := by
    rcases h : R.signed with _ | _
    · have := ITy.digits_unsigned h; simp; omega
    · have := ITy.digits_signed h; simp; omega
  have h4 : (R.bits : Int) ≤ tempBits R T U := by
    unfold tempBits
    dsimp only
    have a1 : R.digits ≤ Nat.max R.digits (Nat.max T.base.digits U.base.digits) := Nat.le_max_left _ _
    have a2 : R.bits ≤ Nat.min tUIntMax.digits
      (Nat.max R.digits (Nat.max T.base.digits U.base.digits) + (if R.signed then 1 else 0)) :=
      Nat.le_min.2 ⟨by omega, by omega⟩
    omega
  have := R.bits_pos
  omega

/-- if no operand has more digits than `R`, the intermediate type is `R` -/
theorem tempBase_self {R : ITy} (hR : R.Ok) {T U : Opd} (h1 : T.base.digits ≤ R.digits) (h2 : U.base.digits ≤ R.digits) :
    tempBase R T U = .ret R := by
  obtain ⟨B, e, hs, hok, hl⟩ := tempBase_spec hR T U
  have hm : Nat.max R.digits (Nat.max T.base.digits U.base.digits) = R.digits := by
    apply Nat.max_eq_left; exact Nat.max_le.2 ⟨h1, h2⟩
  have hb : tempBits R T U ≤ (R.bits : Int) := by
    unfold tempBits
    rw [hm]
    dsimp only
    have a := Nat.min_le_right tUIntMax.digits (R.digits + (if R.signed then 1 else 0))
    have b : R.digits + (if R.signed then 1 else 0) = R.bits := by
      rcases h : R.signed with _ | _
      · have := ITy.digits_unsigned h; simp; omega
      · have := ITy.digits_signed h; simp; omega
    have c : Nat.min tUIntMax.digits (R.digits + (if R.signed then 1 else 0)) ≤ R.bits := by rw [← b]; exact a
    omega
  have hb' : tempBits R T U ≤ ((8 * 2 ^ Arch.maxLg : Nat) : Int) := by
    have h2 : R.bits ≤ 8 * 2 ^ Arch.maxLg := by
      unfold ITy.bits; exact Nat.mul_le_mul_left _ (Nat.pow_le_pow_right (by decide) hR)
    omega
  obtain ⟨B', e', _, _, _, hmin⟩ := leastType_spec (s := R.signed) hb'
  have : B' = B := by unfold tempBase at e; rw [e'] at e; exact Out.ret.inj e
  subst this
  have := hmin R hb
  have hBR : B' = R := by
    rcases B' with ⟨s, l⟩; rcases R with ⟨s', l'⟩
    simp only [ITy.mk.injEq] at *
    exact ⟨hs, by omega⟩
  rw [e, hBR]

/-! ### closed forms -/

/-- the compile time decision of `/` -/
def divExc (R : ITy) (T U : Opd) : Bool :=
  match divItv R ⟨castTo R T.lo, castTo R T.hi⟩ ⟨castTo R U.lo, castTo R U.hi⟩ with
  | .ret ri => divExcPossible R ⟨castTo R U.lo, castTo R U.hi⟩ ri
  | _ => true

/-- the compile time decision of `%` -/
def modExc (R : ITy) (T U : Opd) : Bool :=
  match modItv R ⟨castTo R T.lo, castTo R T.hi⟩ ⟨castTo R U.lo, castTo R U.hi⟩ with
  | .ret ri => divExcPossible R ⟨castTo R U.lo, castTo R U.hi⟩ ri
  | _ => true

theorem checkedDiv_throw {p : EP} (hp : p.ae = .throw) {B R : ITy} {T U : Opd} {t u : Int} (hT : T.Wf) (hU : U.Wf)
    (ht : T.Has t) (hu : U.Has u) :
    (do
      castStatic p B T
      castStatic p B U
      if p.traps [.domain_error, .positive_overflow_error] then .fault .illFormed
      else do
        let r ← castingHelper p B T U t u
        let rx ← divide B (dispatchAndReturn p) r.1 r.2
        if rx.exception then do
          let c ← crDiv B (.ok r.1) (.ok r.2)
          let v ← c.value
          Out.ret (conv R v)
        else do
          let v ← rx.value
          Out.ret (conv R v)) =
    if LitsOk B T U then (quotIn B t u >>= fun v => Out.ret (conv R v)) else .fault .illFormed := by
  have h : p.ae ≠ .trap := by rw [hp]; decide
  rw [castStatics hT hU, traps_div]
  by_cases l : LitsOk B T U
  · rw [if_pos ⟨l, h⟩, if_pos l, castingHelper_throw hp hT ht hU hu l.1 l.2]
    simp only [h, decide_false, Bool.false_eq_true, if_false]
    unfold quotIn
    rcases ct : castTo B t with a | e
    · obtain ⟨rfl, hti⟩ := castTo_ok ct
      rcases cu : castTo B u with b | e
      · obtain ⟨rfl, hui⟩ := castTo_ok cu
        simp only [orThrow, Out.ret_bind]
        rw [divide_eq hti hui]
        split_ifs
        · rw [handler_throw hp rfl]; rfl
        · rw [handler_throw hp rfl]; rfl
        · rfl
      · rfl
    · rfl
  · rw [if_neg (fun q => l q.1), if_neg l]

/-- `/` with a throwing policy, when the denominator range fits `R` or the run time check is made -/
theorem runDiv_throw {p : EP} (hp : p.ae = .throw) {R : ITy} (hR : R.Ok) {T U : Opd} (hT : T.Wf) (hU : U.Wf)
    (hf : divExc R T U = false → Fits R U) :
    ∃ B, tempBase R T U = .ret B ∧ B.signed = R.signed ∧ R.lg ≤ B.lg ∧
    ∀ {t u : Int}, T.Has t → U.Has u → (B = R ∨ R.In (t.tdiv u)) →
      runDiv p R T U t u =
        if divExc R T U = true ∧ ¬ LitsOk B T U then .fault .illFormed else quotIn B t u := by
  obtain ⟨B, eB, hs, hok, hl⟩ := tempBase_spec hR T U
  refine ⟨B, eB, hs, hl, ?_⟩
  intro t u ht hu hq
  obtain ⟨ri, e, pl, pu, _⟩ := divItv_total (R := R) (t := ⟨castTo R T.lo, castTo R T.hi⟩)
    (u := ⟨castTo R U.lo, castTo R U.hi⟩) castTo_proper castTo_proper castTo_proper castTo_proper
  unfold runDiv runDivMod
  rw [resItv_of hT hU e, castItv_eq hU]
  simp only [Out.ret_bind]
  have hx : divExc R T U = divExcPossible R ⟨castTo R U.lo, castTo R U.hi⟩ ri := by unfold divExc; rw [e]
  rw [← hx]
  by_cases hh : divExc R T U = true
  · rw [if_pos hh, eB]
    simp only [Out.ret_bind]
    refine (checkedDiv_throw hp hT hU ht hu).trans ?_
    by_cases l : LitsOk B T U
    · rw [if_pos l, if_neg (fun q => q.2 l)]
      unfold quotIn
      rcases ct : castTo B t with a | e
      · rcases cu : castTo B u with b | e
        · obtain ⟨rfl, hti⟩ := castTo_ok ct
          obtain ⟨rfl, hui⟩ := castTo_ok cu
          dsimp only
          split_ifs with h1 h2
          · rfl
          · rfl
          · rw [Out.ret_bind]
            have hin : R.In (a.tdiv b) := by
              rcases hq with hq | hq
              · subst hq
                refine tdiv_in hti hui h1 ?_
                rintro ⟨g1, g2, g3⟩
                rw [g2, Int.tdiv_neg, Int.tdiv_one, g3] at h2
                have := ITy.min_eq B; rw [g1] at this; simp at this; omega
              · exact hq
            rw [conv_of_in hin]
        · rfl
      · rfl
    · rw [if_neg l, if_pos ⟨hh, l⟩]
  · rw [if_neg hh, if_neg (fun q => hh q.1)]
    have hh' : divExcPossible R ⟨castTo R U.lo, castTo R U.hi⟩ ri = false := by rw [← hx]; simpa using hh
    obtain ⟨h1, h2, h3, h4⟩ := div_static hT hU (hf (by simpa using hh)) e hh' ht hu
    have w : ∀ {x}, R.In x → B.In x := fun hx => hx.widen hs.symm hl
    rw [conv_of_in h1, conv_of_in h2, cDiv_eq (in_uac_self h1) (in_uac_self h2) h3 (in_uac_self h4), Out.ret_bind,
      conv_of_in h4]
    unfold quotIn
    rw [castTo_of_in (w h1), castTo_of_in (w h2)]
    dsimp only
    rw [if_neg h3, if_neg (by have := (w h4).2; omega)]

/-- a denominator range that contains zero makes the run time check necessary -/
theorem divExcPossible_zero {R : ITy} {U : Opd} (h1 : U.lo ≤ 0) (h2 : 0 ≤ U.hi)
    {ri : Itv CR} (pl : Proper R ri.l) (hv : Vague (castTo R U.lo) → Vague ri.l) :
    divExcPossible R ⟨castTo R U.lo, castTo R U.hi⟩ ri = true := by
  have hth : thenCond R ⟨castTo R U.lo, castTo R U.hi⟩ = false := by
    by_contra hh
    have hh : ((crLt R (castTo R U.hi) (.ok 0)).or (crLt R (.ok 0) (castTo R U.lo))).toBool = true := (Bool.not_eq_false _).mp hh
    rw [T3.or_toBool, Bool.or_eq_true] at hh
    have d0 : Describes R (.ok 0) 0 := ⟨R.in_zero, rfl⟩
    rcases hh with hh | hh
    · have := crLt_tt (castTo_describes U.hi) d0 hh; omega
    · have := crLt_tt d0 (castTo_describes U.lo) hh; omega
  unfold divExcPossible
  rcases else_includes (by omega) hth with g | g
  · rw [g]; rfl
  · rw [exc_of_vague (hv g) (fun _ _ => trivial) R pl]; simp

theorem divExc_zero {R : ITy} {T U : Opd} (h1 : U.lo ≤ 0) (h2 : 0 ≤ U.hi) : divExc R T U = true := by
  obtain ⟨ri, e, pl, pu, hv⟩ := divItv_total (R := R) (t := ⟨castTo R T.lo, castTo R T.hi⟩)
    (u := ⟨castTo R U.lo, castTo R U.hi⟩) castTo_proper castTo_proper castTo_proper castTo_proper
  unfold divExc
  rw [e]
  exact divExcPossible_zero h1 h2 pl (fun g => hv (Or.inr g))

/-! ### modulus -/

theorem crMod_vague {R : ITy} {t u : CR} (h : Vague t ∨ Vague u) : crMod R t u = .ret (.err .range_error) := by
  unfold crMod
  have : modTable (prodFlag R t) (prodFlag R u) = .indeterminate := by
    rcases h with h | h <;> rw [h.prodFlag]
    · cases prodFlag R u <;> rfl
    · cases prodFlag R t <;> rfl
  rw [this]; rfl

theorem modulus_proper {R : ITy} {a b : Int} (ha : R.In a) (hb : R.In b) :
    ∃ e, modulus R make a b = .ret e ∧ Proper R e := by
  rw [modulus_eq ha hb]
  split_ifs
  · exact ⟨_, rfl, by show _ ≠ _; decide⟩
  · exact ⟨_, rfl, ha⟩
  · exact ⟨_, rfl, tmod_in ha⟩

theorem subtract_proper {R : ITy} {a b : Int} (ha : R.In a) (hb : R.In b) :
    ∃ e, subtract R make a b = .ret e ∧ Proper R e := by
  rw [subtract_eq ha hb]
  split_ifs
  · exact ⟨_, rfl, by show _ ≠ _; decide⟩
  · exact ⟨_, rfl, by show _ ≠ _; decide⟩
  · exact ⟨_, rfl, ⟨by omega, by omega⟩⟩

theorem crMod_total {R : ITy} {c d : CR} (pc : Proper R c) (pd : Proper R d) :
    ∃ e, crMod R c d = .ret e ∧ Proper R e ∧ ((Vague c ∨ Vague d) → Vague e) := by
  by_cases hv : Vague c ∨ Vague d
  · exact ⟨_, crMod_vague hv, by show _ ≠ _; decide, fun _ => ⟨_, rfl, by decide, by decide⟩⟩
  suffices h : ∃ e, crMod R c d = .ret e ∧ Proper R e from
    let ⟨e, h1, h2⟩ := h; ⟨e, h1, h2, fun g => absurd g hv⟩
  have pr : Proper R (.err .range_error) := proper_range R
  have p0 : Proper R (.ok 0) := R.in_zero
  rcases c.cases4 with ⟨a, rfl⟩ | rfl | rfl | hv'
  · have ha : R.In a := pc
    rcases d.cases4 with ⟨b, rfl⟩ | rfl | rfl | hv'
    · have hb : R.In b := pd
      obtain ⟨e, h1, h2⟩ := modulus_proper ha hb
      unfold crMod
      rw [prodFlag_ok ha, prodFlag_ok hb]
      split_ifs <;> first | exact ⟨e, h1, h2⟩ | exact ⟨_, rfl, pr⟩ | exact ⟨_, rfl, p0⟩
    · unfold crMod; rw [prodFlag_ok ha]
      split_ifs <;> first | exact ⟨_, rfl, ha⟩ | exact ⟨_, rfl, pr⟩ | exact ⟨_, rfl, p0⟩
    · unfold crMod; rw [prodFlag_ok ha]
      split_ifs <;> first | exact ⟨_, rfl, ha⟩ | exact ⟨_, rfl, pr⟩ | exact ⟨_, rfl, p0⟩
    · exact absurd (Or.inr hv') hv
  · rcases d.cases4 with ⟨b, rfl⟩ | rfl | rfl | hv'
    · have hb : R.In b := pd
      obtain ⟨e, h1, h2⟩ := subtract_proper R.in_one hb
      unfold crMod; rw [prodFlag_ok hb]
      split_ifs <;> first | exact ⟨e, h1, h2⟩ | exact ⟨_, rfl, pr⟩
    · exact ⟨_, rfl, pr⟩
    · exact ⟨_, rfl, pr⟩
    · exact absurd (Or.inr hv') hv
  · rcases d.cases4 with ⟨b, rfl⟩ | rfl | rfl | hv'
    · have hb : R.In b := pd
      obtain ⟨e, h1, h2⟩ := subtract_proper hb R.in_one
      unfold crMod; rw [prodFlag_ok hb]
      split_ifs <;> first | exact ⟨e, h1, h2⟩ | exact ⟨_, rfl, pr⟩
    · exact ⟨_, rfl, pr⟩
    · exact ⟨_, rfl, pr⟩
    · exact absurd (Or.inr hv') hv
  · exact absurd (Or.inl hv') hv

theorem modItv_total {R : ITy} {t u : Itv CR} (ptl : Proper R t.l) (ptu : Proper R t.u) (pul : Proper R u.l)
    (puu : Proper R u.u) :
    ∃ ri, modItv R t u = .ret ri ∧ Proper R ri.l ∧ Proper R ri.u ∧
      ((Vague t.l ∨ Vague u.l) → Vague ri.l) := by
  obtain ⟨c1, e1, p1, g1⟩ := crMod_total ptl pul
  obtain ⟨c4, e4, p4, _⟩ := crMod_total ptl puu
  obtain ⟨c5, e5, p5, _⟩ := crMod_total ptu pul
  obtain ⟨c8, e8, p8, _⟩ := crMod_total ptu puu
  by_cases h : thenCond R u = true
  · have hp : ∀ c ∈ [c1, c4, c5, c8], Proper R c := by
      intro c hc; simp at hc; rcases hc with rfl | rfl | rfl | rfl <;> assumption
    obtain ⟨m, M, e, hmem, hMem, hh⟩ := minmax_cr c1 [c4, c5, c8] hp
    refine ⟨⟨m, M⟩, ?_, hp m hmem, hp M hMem, ?_⟩
    · unfold modItv divModItv
      change (if thenCond R u = true then _ else _) = _
      rw [if_pos h]
      simp only [itvMod, excludes_of_then h, assertThat, if_true, Out.ret_bind, corners, minmax4, e1, e4, e5, e8, e]
    · intro v
      have := g1 v
      rcases hh with ⟨va, rfl, _⟩ | ⟨va, _⟩
      · exact va
      · exact absurd this va
  · obtain ⟨c2, e2, p2, _⟩ := crMod_total ptl (minus_one_proper R)
    obtain ⟨c3, e3, p3, _⟩ := crMod_total (R := R) (d := .ok 1) ptl R.in_one
    obtain ⟨c6, e6, p6, _⟩ := crMod_total ptu (minus_one_proper R)
    obtain ⟨c7, e7, p7, _⟩ := crMod_total (R := R) (d := .ok 1) ptu R.in_one
    have hp : ∀ c ∈ [c1, c2, c3, c4, c5, c6, c7, c8], Proper R c := by
      intro c hc; simp at hc
      rcases hc with rfl | rfl | rfl | rfl | rfl | rfl | rfl | rfl <;> assumption
    obtain ⟨m, M, e, hmem, hMem, hh⟩ := minmax_cr c1 [c2, c3, c4, c5, c6, c7, c8] hp
    refine ⟨⟨m, M⟩, ?_, hp m hmem, hp M hMem, ?_⟩
    · unfold modItv divModItv
      change (if thenCond R u = true then _ else _) = _
      rw [if_neg h]
      simp only [Out.ret_bind, e1, e2, e3, e4, e5, e6, e7, e8, e]
    · intro v
      have := g1 v
      rcases hh with ⟨va, rfl, _⟩ | ⟨va, _⟩
      · exact va
      · exact absurd this va

/-- when no exception is possible in a modulus whose operand ranges fit `R` -/
theorem mod_static {R : ITy} {T U : Opd} (hT : T.Wf) (hU : U.Wf) (hfT : Fits R T) (hf : Fits R U) {ri : Itv CR}
    (e : modItv R ⟨castTo R T.lo, castTo R T.hi⟩ ⟨castTo R U.lo, castTo R U.hi⟩ = .ret ri)
    (h : divExcPossible R ⟨castTo R U.lo, castTo R U.hi⟩ ri = false) {t u : Int} (ht : T.Has t) (hu : U.Has u) :
    R.In t ∧ R.In u ∧ u ≠ 0 := by
  unfold divExcPossible at h
  simp only [Bool.or_eq_false_iff] at h
  obtain ⟨⟨hinc, hl⟩, hu'⟩ := h
  obtain ⟨ri', e', pl, pu, hv⟩ := modItv_total (R := R) (t := ⟨castTo R T.lo, castTo R T.hi⟩)
    (u := ⟨castTo R U.lo, castTo R U.hi⟩) castTo_proper castTo_proper castTo_proper castTo_proper
  rw [e] at e'
  obtain rfl := Out.ret.inj e'
  have nv : ¬ (Vague (castTo R T.lo) ∨ Vague (castTo R U.lo)) := by
    intro hh
    have := exc_of_vague (hv hh) (fun _ _ => trivial) R pl
    rw [hl] at this; exact absurd this (by decide)
  have hth : thenCond R ⟨castTo R U.lo, castTo R U.hi⟩ = true := by
    by_contra hh
    rcases else_includes hU.2.2.2.1 (by simpa using hh) with g | g
    · rw [hinc] at g; exact absurd g (by decide)
    · exact nv (Or.inr g)
  obtain ⟨hU', hne⟩ := then_fits hU.2.2.2.1 hf hth
  refine ⟨in_between (hfT.in_of_nonvague hT.2.2.2.1 (fun g => nv (Or.inl g))) ht, in_between hU' hu, ?_⟩
  have := hu.1; have := hu.2; omega

theorem checkedMod_throw {p : EP} (hp : p.ae = .throw) {B R : ITy} {T U : Opd} {t u : Int} (hT : T.Wf) (hU : U.Wf)
    (ht : T.Has t) (hu : U.Has u) (hx : ¬ (B.signed = true ∧ t = B.min ∧ u = B.min)) :
    (do
      castStatic p B T
      castStatic p B U
      if p.traps [.domain_error] then .fault .illFormed
      else do
        let r ← castingHelper p B T U t u
        let rx ← modulus B (dispatchAndReturn p) r.1 r.2
        if rx.exception then do
          let c ← crMod B (.ok r.1) (.ok r.2)
          let v ← c.value
          Out.ret (conv R v)
        else do
          let v ← rx.value
          Out.ret (conv R v)) =
    if LitsOk B T U then (remIn B t u >>= fun v => Out.ret (conv R v)) else .fault .illFormed := by
  have h : p.ae ≠ .trap := by rw [hp]; decide
  rw [castStatics hT hU, traps_mod]
  by_cases l : LitsOk B T U
  · rw [if_pos ⟨l, h⟩, if_pos l, castingHelper_throw hp hT ht hU hu l.1 l.2]
    simp only [h, decide_false, Bool.false_eq_true, if_false]
    unfold remIn
    rcases ct : castTo B t with a | e
    · obtain ⟨rfl, hti⟩ := castTo_ok ct
      rcases cu : castTo B u with b | e
      · obtain ⟨rfl, hui⟩ := castTo_ok cu
        simp only [orThrow, Out.ret_bind]
        rw [modulus_eq hti hui, if_neg hx]
        split_ifs
        · rw [handler_throw hp rfl]; rfl
        · rfl
      · rfl
    · rfl
  · rw [if_neg (fun q => l q.1), if_neg l]

theorem modExc_zero {R : ITy} {T U : Opd} (h1 : U.lo ≤ 0) (h2 : 0 ≤ U.hi) : modExc R T U = true := by
  obtain ⟨ri, e, pl, pu, hv⟩ := modItv_total (R := R) (t := ⟨castTo R T.lo, castTo R T.hi⟩)
    (u := ⟨castTo R U.lo, castTo R U.hi⟩) castTo_proper castTo_proper castTo_proper castTo_proper
  unfold modExc
  rw [e]
  exact divExcPossible_zero h1 h2 pl (fun g => hv (Or.inr g))

/-- `%` with a throwing policy, when the operand ranges fit `R` or the run time check is made; two argument pairs are
left out -/
theorem runMod_throw {p : EP} (hp : p.ae = .throw) {R : ITy} (hR : R.Ok) {T U : Opd} (hT : T.Wf) (hU : U.Wf)
    (hf : modExc R T U = false → Fits R T ∧ Fits R U) :
    ∃ B, tempBase R T U = .ret B ∧ B.signed = R.signed ∧ R.lg ≤ B.lg ∧
    ∀ {t u : Int}, T.Has t → U.Has u → ¬ (R.signed = true ∧ t = B.min ∧ u = B.min) →
      (modExc R T U = false → ¬ (R.signed = true ∧ t = R.min ∧ u = -1)) →
      (B.In t → u ≠ 0 → R.In (t.tmod u)) →
      runMod p R T U t u =
        if modExc R T U = true ∧ ¬ LitsOk B T U then .fault .illFormed else remIn B t u := by
  obtain ⟨B, eB, hs, hok, hl⟩ := tempBase_spec hR T U
  refine ⟨B, eB, hs, hl, ?_⟩
  intro t u ht hu hx1 hx2 hx3
  obtain ⟨ri, e, pl, pu, _⟩ := modItv_total (R := R) (t := ⟨castTo R T.lo, castTo R T.hi⟩)
    (u := ⟨castTo R U.lo, castTo R U.hi⟩) castTo_proper castTo_proper castTo_proper castTo_proper
  unfold runMod runDivMod
  rw [resItv_of hT hU e, castItv_eq hU]
  simp only [Out.ret_bind]
  have hx : modExc R T U = divExcPossible R ⟨castTo R U.lo, castTo R U.hi⟩ ri := by unfold modExc; rw [e]
  rw [← hx]
  by_cases hh : modExc R T U = true
  · rw [if_pos hh, eB]
    simp only [Out.ret_bind]
    refine (checkedMod_throw hp hT hU ht hu (by rw [hs]; exact hx1)).trans ?_
    by_cases l : LitsOk B T U
    · rw [if_pos l, if_neg (fun q => q.2 l)]
      unfold remIn
      rcases ct : castTo B t with a | e
      · rcases cu : castTo B u with b | e
        · obtain ⟨rfl, hti⟩ := castTo_ok ct
          obtain ⟨rfl, hui⟩ := castTo_ok cu
          dsimp only
          split_ifs with h1
          · rfl
          · rw [Out.ret_bind]
            rw [conv_of_in (hx3 hti h1)]
        · rfl
      · rfl
    · rw [if_neg l, if_pos ⟨hh, l⟩]
  · rw [if_neg hh, if_neg (fun q => hh q.1)]
    have hh0 : modExc R T U = false := by simpa using hh
    have hh' : divExcPossible R ⟨castTo R U.lo, castTo R U.hi⟩ ri = false := by rw [← hx]; exact hh0
    obtain ⟨h1, h2, h3⟩ := mod_static hT hU (hf hh0).1 (hf hh0).2 e hh' ht hu
    have w : ∀ {x}, R.In x → B.In x := fun hx => hx.widen hs.symm hl
    have h4 : R.In (t.tdiv u) := tdiv_in h1 h2 h3 (fun g => hx2 hh0 ⟨g.1, g.2.2, g.2.1⟩)
    rw [conv_of_in h1, conv_of_in h2, cMod_eq (in_uac_self h1) (in_uac_self h2) h3 (fun _ => in_uac_self h4),
      Out.ret_bind, conv_of_in (tmod_in h1)]
    unfold remIn
    rw [castTo_of_in (w h1), castTo_of_in (w h2)]
    dsimp only
    rw [if_neg h3]

end
end Verif
