import Verif.Proofs.Exact
import Verif.Proofs.Quiet

/-!
Helper lemmas for C76: exactly when the run time check of `/` is left out, for an arbitrary result type.
-/

namespace Verif
open Spec
section
variable [Arch]

theorem then_iff {R : ITy} {U : Opd} :
    thenCond R ⟨castTo R U.lo, castTo R U.hi⟩ = true ↔ 0 < U.lo ∨ (R.signed = true ∧ U.hi < 0) := by
  have hz := R.min_nonpos; have hm := R.max_ge
  have c0 : castTo R 0 = .ok 0 := castTo_of_in R.in_zero
  change ((crLt R (castTo R U.hi) (.ok 0)).or (crLt R (.ok 0) (castTo R U.lo))).toBool = true ↔ _
  rw [T3.or_toBool, Bool.or_eq_true, ← c0, crLt_castTo, crLt_castTo]
  rcases hs : R.signed with _ | _
  · simp; omega
  · simp; omega

theorem not_includes {R : ITy} {u : Itv CR} (h : thenCond R u = true) :
    (u.includesPt (crCmp R) (.ok 0)).toBool = false := by
  change ((crLt R u.u (.ok 0)).or (crLt R (.ok 0) u.l)).toBool = true at h
  change (((crLt R (.ok 0) u.l).not).and ((crLt R u.u (.ok 0)).not)).toBool = false
  revert h
  cases crLt R u.u (.ok 0) <;> cases crLt R (.ok 0) u.l <;> decide

theorem ends_iff {R : ITy} {a b c d : CR} (h : ∀ x ∈ [a, b, c, d], Proper R x) :
    ∃ m M, minmax (crLtB R) [a, b, c, d] = .ret (m, M) ∧
      ((m.exception = false ∧ M.exception = false) ↔
        ¬ Vague a ∧ ∀ x ∈ [a, b, c, d], x ≠ below ∧ x ≠ above) := by
  obtain ⟨m, M, e, hm, hM, hh⟩ := minmax_cr (R := R) a [b, c, d] h
  refine ⟨m, M, e, ?_⟩
  have hz := R.min_le_max
  have okof : ∀ {x : CR}, Proper R x → x.exception = false → ∃ v, x = .ok v ∧ R.In v := by
    intro x px hx
    rcases x with v | e
    · exact ⟨v, rfl, px⟩
    · have : e ≠ .success := px; simp [CR.exception, this] at hx
  have nov : ∀ {x : CR}, ¬ Vague x → x ≠ below → x ≠ above → x.exception = false := by
    intro x h1 h2 h3
    rcases x.cases4 with ⟨v, rfl⟩ | rfl | rfl | hv
    · rfl
    · exact absurd rfl h2
    · exact absurd rfl h3
    · exact absurd hv h1
  rcases hh with ⟨va, rfl, rfl⟩ | ⟨va, vm, vM, hh⟩
  · constructor
    · rintro ⟨h1, _⟩
      obtain ⟨v, rfl, _⟩ := okof (h _ (by simp)) h1
      exact absurd va (not_vague_ok _)
    · rintro ⟨h1, _⟩; exact absurd va h1
  · constructor
    · rintro ⟨h1, h2⟩
      obtain ⟨v, rfl, iv⟩ := okof (h _ hm) h1
      obtain ⟨w, rfl, iw⟩ := okof (h _ hM) h2
      have := iv.1; have := iw.2
      refine ⟨va, fun x hx => ⟨?_, ?_⟩⟩
      · rintro rfl
        have := hh _ hx not_vague_neg
        simp only [CR.key] at this; omega
      · rintro rfl
        have := hh _ hx not_vague_pos
        simp only [CR.key] at this; omega
    · rintro ⟨_, h1⟩
      exact ⟨nov vm (h1 _ hm).1 (h1 _ hm).2, nov vM (h1 _ hM).1 (h1 _ hM).2⟩

/-- the run time check of `/` is left out iff the divisor range is on one side of zero and the interval of quotients has ends -/
private theorem divExc_iff {R : ITy} {T U : Opd} {c1 c4 c5 c8 : CR} (hl : U.lo ≤ U.hi)
    (e1 : crDiv R (castTo R T.lo) (castTo R U.lo) = .ret c1) (e4 : crDiv R (castTo R T.lo) (castTo R U.hi) = .ret c4)
    (e5 : crDiv R (castTo R T.hi) (castTo R U.lo) = .ret c5) (e8 : crDiv R (castTo R T.hi) (castTo R U.hi) = .ret c8) :
    divExc R T U = false ↔ (0 < U.lo ∨ (R.signed = true ∧ U.hi < 0)) ∧ ¬ Vague c1 ∧
      ∀ x ∈ [c1, c4, c5, c8], x ≠ below ∧ x ≠ above := by
  have pr : ∀ {a b : Int} {c : CR}, crDiv R (castTo R a) (castTo R b) = .ret c → Proper R c := fun {a b c} e => by
    obtain ⟨c', e', p, _⟩ := crDiv_total (R := R) (castTo_proper (x := a)) (castTo_proper (x := b))
    rw [e] at e'; rw [Out.ret.inj e']; exact p
  have hp : ∀ x ∈ [c1, c4, c5, c8], Proper R x := by
    intro c hc; simp at hc
    rcases hc with rfl | rfl | rfl | rfl
    · exact pr e1
    · exact pr e4
    · exact pr e5
    · exact pr e8
  by_cases hth : thenCond R ⟨castTo R U.lo, castTo R U.hi⟩ = true
  · obtain ⟨m, M, em, h⟩ := ends_iff hp
    have e : divItv R ⟨castTo R T.lo, castTo R T.hi⟩ ⟨castTo R U.lo, castTo R U.hi⟩ = .ret ⟨m, M⟩ := by
      unfold divItv divModItv
      change (if thenCond R _ = true then _ else _) = _
      rw [if_pos hth]
      simp only [itvDiv, excludes_of_then hth, assertThat, if_true, Out.ret_bind, corners, minmax4, e1, e4, e5, e8, em]
    rw [← h]
    unfold divExc
    rw [e]
    unfold divExcPossible
    rw [not_includes hth]
    simp only [Bool.false_or, Bool.or_eq_false_iff]
    exact ⟨fun g => ⟨then_iff.1 hth, g⟩, fun g => g.2⟩
  · refine iff_of_false ?_ (fun g => hth (then_iff.2 g.1))
    obtain ⟨ri, e, pl, pu, hv⟩ := divItv_total (R := R) (t := ⟨castTo R T.lo, castTo R T.hi⟩)
      (u := ⟨castTo R U.lo, castTo R U.hi⟩) castTo_proper castTo_proper castTo_proper castTo_proper
    unfold divExc
    rw [e]
    unfold divExcPossible
    rcases else_includes hl (by simpa using hth) with g | g
    · simp [g]
    · simp [exc_of_vague (hv (Or.inr g)) (fun _ _ => trivial) R pl]

private theorem tdiv_pos_le {R : ITy} {x y : Int} (h : R.In x) (hy : 0 < y) : x.tdiv y ≤ R.max := by
  have := h.2; have := R.max_ge
  rcases Int.lt_or_le x 0 with g | g
  · have := Int.tdiv_nonneg (a := -x) (b := y) (by omega) (by omega)
    rw [Int.neg_tdiv] at this; omega
  · have := Int.tdiv_le_self (a := x) y g; omega

/-- a positive divisor that `R` has -/
private theorem quot_pos {R : ITy} {x y : Int} (iy : R.In y) (hy : 0 < y) :
    ∃ c, crDiv R (castTo R x) (castTo R y) = .ret c ∧ ((¬ Vague c ∧ c ≠ below ∧ c ≠ above) ↔ R.In x) := by
  rw [castTo_of_in iy]
  rcases castTo_cases R x with ⟨e, i⟩ | ⟨e, i⟩ | ⟨e, i, _⟩ | ⟨e, hs, i⟩ <;> rw [e]
  · have := tdiv_pos_le i hy
    rw [crDiv_ok i iy (by omega), if_neg (by omega)]
    exact ⟨_, rfl, iff_of_true ⟨not_vague_ok _, by simp, by simp⟩ i⟩
  · rw [crDiv_pos_ok iy (by omega), if_neg (by omega)]
    exact ⟨_, rfl, iff_of_false (fun g => g.2.2 rfl) (fun g => by have := g.2; omega)⟩
  · rw [crDiv_neg_ok iy (by omega), if_neg (by omega)]
    exact ⟨_, rfl, iff_of_false (fun g => g.2.1 rfl) (fun g => by have := g.1; omega)⟩
  · rw [crDiv_vague (Or.inl ⟨_, rfl, by decide, by decide⟩)]
    exact ⟨_, rfl, iff_of_false (fun g => g.1 vague_range) (fun g => by have := g.nonneg hs; omega)⟩

/-- a negative divisor that `R` has -/
private theorem quot_neg {R : ITy} {x y : Int} (iy : R.In y) (hy : y < 0) :
    ∃ c, crDiv R (castTo R x) (castTo R y) = .ret c ∧
      ((¬ Vague c ∧ c ≠ below ∧ c ≠ above) ↔ R.In x ∧ x.tdiv y ≤ R.max) := by
  rw [castTo_of_in iy]
  rcases castTo_cases R x with ⟨e, i⟩ | ⟨e, i⟩ | ⟨e, i, _⟩ | ⟨e, hs, i⟩ <;> rw [e]
  · rw [crDiv_ok i iy (by omega)]
    split
    · exact ⟨_, rfl, iff_of_false (fun g => g.2.2 rfl) (fun g => by omega)⟩
    · exact ⟨_, rfl, iff_of_true ⟨not_vague_ok _, by simp, by simp⟩ ⟨i, by omega⟩⟩
  · rw [crDiv_pos_ok iy (by omega), if_pos hy]
    exact ⟨_, rfl, iff_of_false (fun g => g.2.1 rfl) (fun g => by have := g.1.2; omega)⟩
  · rw [crDiv_neg_ok iy (by omega), if_pos hy]
    exact ⟨_, rfl, iff_of_false (fun g => g.2.2 rfl) (fun g => by have := g.1.1; omega)⟩
  · rw [crDiv_vague (Or.inl ⟨_, rfl, by decide, by decide⟩)]
    exact ⟨_, rfl, iff_of_false (fun g => g.1 vague_range) (fun g => by have := g.1.nonneg hs; omega)⟩

/-- a divisor above the range of `R` -/
private theorem quot_above {R : ITy} {x y : Int} (hy : R.max < y) :
    ∃ c, crDiv R (castTo R x) (castTo R y) = .ret c ∧ ((¬ Vague c ∧ c ≠ below ∧ c ≠ above) ↔ R.In x) ∧
      (R.max < x → c ≠ below ∧ c ≠ above) := by
  have hm := R.min_le_max; have hz := R.max_ge
  have ey : castTo R y = above := by
    unfold castTo exactOr; rw [if_neg (fun g => by have := g.2; omega), if_pos hy]
  rw [ey]
  rcases castTo_cases R x with ⟨e, i⟩ | ⟨e, i⟩ | ⟨e, i, _⟩ | ⟨e, hs, i⟩ <;> rw [e]
  · rw [(crDiv_ok_marker i).2]
    exact ⟨_, rfl, iff_of_true ⟨not_vague_ok _, by simp, by simp⟩ i, fun _ => by simp⟩
  · exact ⟨.err .range_error, rfl, iff_of_false (fun g => g.1 vague_range) (fun g => by have := g.2; omega), fun _ => by simp⟩
  · exact ⟨below, rfl, iff_of_false (fun g => g.2.1 rfl) (fun g => by have := g.1; omega), fun _ => by omega⟩
  · rw [crDiv_vague (Or.inl ⟨_, rfl, by decide, by decide⟩)]
    exact ⟨_, rfl, iff_of_false (fun g => g.1 vague_range) (fun g => by have := g.nonneg hs; omega), fun _ => by simp⟩

/-- a divisor below the range of `R` -/
private theorem quot_below {R : ITy} {x y : Int} (hs : R.signed = true) (hy : y < R.min) :
    ∃ c, crDiv R (castTo R x) (castTo R y) = .ret c ∧ ((¬ Vague c ∧ c ≠ below ∧ c ≠ above) ↔ R.In x) ∧
      (R.max < x → c = below) := by
  have hm := R.min_le_max; have hz := R.max_ge
  have ey : castTo R y = below := by
    unfold castTo exactOr; rw [if_neg (fun g => by rw [hs] at g; cases g.1), if_neg (by omega), if_pos hy]
  rw [ey]
  rcases castTo_cases R x with ⟨e, i⟩ | ⟨e, i⟩ | ⟨e, i, _⟩ | ⟨e, hs', i⟩ <;> rw [e]
  · rw [(crDiv_ok_marker i).1]
    exact ⟨_, rfl, iff_of_true ⟨not_vague_ok _, by simp, by simp⟩ i, fun h => by have := i.2; omega⟩
  · exact ⟨below, rfl, iff_of_false (fun g => g.2.1 rfl) (fun g => by have := g.2; omega), fun _ => rfl⟩
  · exact ⟨.err .range_error, rfl, iff_of_false (fun g => g.1 vague_range) (fun g => by have := g.1; omega), fun _ => by omega⟩
  · rw [hs] at hs'; cases hs'

/-- exactly when the run time check of `/` is left out -/
theorem divExc_unchecked {R : ITy} {T U : Opd} (hT : T.lo ≤ T.hi) (hU : U.lo ≤ U.hi) :
    divExc R T U = false ↔ DivUnchecked R T U := by
  have hm := R.min_nonpos; have hz := R.max_ge
  by_cases hp : 0 < U.lo
  · have tl : R.In T.lo → T.lo.tdiv U.hi ≤ R.max := fun h => tdiv_pos_le h (by omega)
    unfold DivUnchecked
    by_cases h1 : R.max < U.lo
    · obtain ⟨c1, e1, g1, _⟩ := quot_above (R := R) (x := T.lo) h1
      obtain ⟨c5, e5, g5, k5⟩ := quot_above (R := R) (x := T.hi) h1
      obtain ⟨c4, e4, g4, _⟩ := quot_above (R := R) (x := T.lo) (y := U.hi) (by omega)
      obtain ⟨c8, e8, g8, k8⟩ := quot_above (R := R) (x := T.hi) (y := U.hi) (by omega)
      rw [divExc_iff hU e1 e4 e5 e8]
      constructor
      · rintro ⟨_, v, h⟩
        exact ⟨Or.inl hp, g1.1 ⟨v, h c1 (by simp)⟩, Or.inl h1⟩
      · rintro ⟨_, i, _⟩
        have i1 := g1.2 i; have i4 := g4.2 i
        have hh : R.In T.hi ∨ R.max < T.hi := by
          by_cases g : R.max < T.hi
          · exact Or.inr g
          · exact Or.inl ⟨by have := i.1; omega, by omega⟩
        refine ⟨Or.inl hp, i1.1, ?_⟩
        intro x hx
        simp at hx
        rcases hx with rfl | rfl | rfl | rfl
        · exact i1.2
        · exact i4.2
        · exact hh.elim (fun g => (g5.2 g).2) k5
        · exact hh.elim (fun g => (g8.2 g).2) k8
    · have iu : R.In U.lo := ⟨by omega, by omega⟩
      obtain ⟨c1, e1, g1⟩ := quot_pos (x := T.lo) iu hp
      obtain ⟨c5, e5, g5⟩ := quot_pos (x := T.hi) iu hp
      have r : ∀ x, ∃ c, crDiv R (castTo R x) (castTo R U.hi) = .ret c ∧ ((¬ Vague c ∧ c ≠ below ∧ c ≠ above) ↔ R.In x) := by
        intro x
        by_cases h2 : R.max < U.hi
        · obtain ⟨c, a, b, _⟩ := quot_above (R := R) (x := x) h2; exact ⟨c, a, b⟩
        · exact quot_pos ⟨by omega, by omega⟩ (by omega)
      obtain ⟨c4, e4, g4⟩ := r T.lo
      obtain ⟨c8, e8, g8⟩ := r T.hi
      rw [divExc_iff hU e1 e4 e5 e8]
      constructor
      · rintro ⟨_, v, h⟩
        have il := g1.1 ⟨v, h c1 (by simp)⟩
        refine ⟨Or.inl hp, il, Or.inr ⟨?_, tl il⟩⟩
        by_contra hc
        have hc' : R.max < T.hi := by
          by_contra g; exact hc ⟨by have := il.1; omega, by omega⟩
        have e : crDiv R (castTo R T.hi) (castTo R U.lo) = .ret above := by
          have : castTo R T.hi = above := by
            unfold castTo exactOr; rw [if_neg (fun g => by have := g.2; omega), if_pos hc']
          rw [this, castTo_of_in iu, crDiv_pos_ok iu (by omega), if_neg (by omega)]
        rw [e5] at e
        exact (h c5 (by simp)).2 (Out.ret.inj e)
      · rintro ⟨_, i, h⟩
        obtain ⟨ih, _⟩ := h.resolve_left h1
        have i1 := g1.2 i
        refine ⟨Or.inl hp, i1.1, ?_⟩
        intro x hx
        simp at hx
        rcases hx with rfl | rfl | rfl | rfl
        · exact i1.2
        · exact (g4.2 i).2
        · exact (g5.2 ih).2
        · exact (g8.2 ih).2
  · by_cases hn : R.signed = true ∧ U.hi < 0
    · obtain ⟨hs, hn⟩ := hn
      unfold DivUnchecked
      have small : ∀ {y z x : Int}, y ≤ z → z < 0 → R.In x → T.lo ≤ x → R.In T.lo → T.lo.tdiv z ≤ R.max → x.tdiv y ≤ R.max := by
        intro y z x h1 h2 h3 h4 h5 h6
        rcases Int.lt_or_le x 0 with g | g
        · have a : x.tdiv y = (-x).tdiv (-y) := by rw [Int.neg_tdiv, Int.tdiv_neg]; omega
          have b : T.lo.tdiv z = (-T.lo).tdiv (-z) := by rw [Int.neg_tdiv, Int.tdiv_neg]; omega
          rw [a, Int.tdiv_eq_ediv_of_nonneg (by omega)]
          rw [b, Int.tdiv_eq_ediv_of_nonneg (by omega)] at h6
          have c1 : -x / -y ≤ -T.lo / -y := Int.ediv_le_ediv (by omega) (by omega)
          have c2 : -T.lo / -y ≤ -T.lo / -z := by
            have := Int.ediv_nonneg (a := -T.lo) (b := -y) (by omega) (by omega)
            have e := Int.ediv_mul_le (-T.lo) (b := -y) (by omega)
            rw [Int.le_ediv_iff_mul_le (by omega)]
            nlinarith
          omega
        · have := Int.tdiv_nonneg (a := x) (b := -y) g (by omega)
          rw [Int.tdiv_neg] at this; omega
      have r : ∀ x y, y ≤ U.hi → ∃ c, crDiv R (castTo R x) (castTo R y) = .ret c ∧
          ((¬ Vague c ∧ c ≠ below ∧ c ≠ above) → R.In x ∧ (R.In y → x.tdiv y ≤ R.max)) ∧
          (R.In x ∧ x.tdiv y ≤ R.max → ¬ Vague c ∧ c ≠ below ∧ c ≠ above) ∧ (R.max < x → c = below) := by
        intro x y hy
        by_cases h2 : y < R.min
        · obtain ⟨c, a, b, d⟩ := quot_below (R := R) (x := x) hs h2
          exact ⟨c, a, fun g => ⟨b.1 g, fun i => by have := i.1; omega⟩, fun g => b.2 g.1, d⟩
        · have iy : R.In y := ⟨by omega, by omega⟩
          obtain ⟨c, a, b⟩ := quot_neg (x := x) iy (by omega)
          refine ⟨c, a, fun g => ⟨(b.1 g).1, fun _ => (b.1 g).2⟩, b.2, fun h => ?_⟩
          have : castTo R x = above := by
            unfold castTo exactOr; rw [if_neg (fun g => by have := g.2; omega), if_pos h]
          rw [this, castTo_of_in iy, crDiv_pos_ok iy (by omega), if_pos (by omega)] at a
          exact (Out.ret.inj a).symm
      obtain ⟨c1, e1, f1, g1, _⟩ := r T.lo U.lo hU
      obtain ⟨c4, e4, f4, g4, _⟩ := r T.lo U.hi (Int.le_refl _)
      obtain ⟨c5, e5, f5, g5, k5⟩ := r T.hi U.lo hU
      obtain ⟨c8, e8, f8, g8, k8⟩ := r T.hi U.hi (Int.le_refl _)
      have far : R.In T.lo → U.hi < R.min → T.lo.tdiv U.hi ≤ R.max := by
        intro i h
        have e := ITy.min_eq R
        rw [hs, if_pos rfl] at e
        have := i.1; have := i.2
        rw [tdiv_eq_zero_of_abs] <;> omega
      have nv : R.In T.lo → ¬ Vague c4 := by
        intro i v
        by_cases h2 : U.hi < R.min
        · exact (g4 ⟨i, far i h2⟩).1 v
        · have iy : R.In U.hi := ⟨by omega, by omega⟩
          rw [castTo_of_in i, castTo_of_in iy, crDiv_ok i iy (by omega)] at e4
          rw [← Out.ret.inj e4] at v
          split at v
          · exact absurd v not_vague_pos
          · exact absurd v (not_vague_ok _)
      rw [divExc_iff hU e1 e4 e5 e8]
      constructor
      · rintro ⟨_, v, h⟩
        obtain ⟨il, _⟩ := f1 ⟨v, h c1 (by simp)⟩
        have i4 := (f4 ⟨nv il, h c4 (by simp)⟩).2
        refine ⟨Or.inr ⟨hs, hn⟩, il, Or.inr ⟨?_, ?_⟩⟩
        · by_contra hc
          have hc' : R.max < T.hi := by
            by_contra g; exact hc ⟨by have := il.1; omega, by omega⟩
          exact (h c5 (by simp)).1 (k5 hc')
        · by_cases h2 : U.hi < R.min
          · exact far il h2
          · exact i4 ⟨by omega, by omega⟩
      · rintro ⟨_, i, h⟩
        obtain ⟨ih, hq⟩ := h.resolve_left (by omega)
        have q : ∀ {x y}, y ≤ U.hi → R.In x → T.lo ≤ x → x.tdiv y ≤ R.max := fun a b c => small a hn b c i hq
        have i1 := g1 ⟨i, q hU i (Int.le_refl _)⟩
        refine ⟨Or.inr ⟨hs, hn⟩, i1.1, ?_⟩
        intro x hx
        simp at hx
        rcases hx with rfl | rfl | rfl | rfl
        · exact i1.2
        · exact (g4 ⟨i, hq⟩).2
        · exact (g5 ⟨ih, q hU ih hT⟩).2
        · exact (g8 ⟨ih, q (Int.le_refl _) ih hT⟩).2
    · obtain ⟨c1, e1, _⟩ := crDiv_total (R := R) (castTo_proper (x := T.lo)) (castTo_proper (x := U.lo))
      obtain ⟨c4, e4, _⟩ := crDiv_total (R := R) (castTo_proper (x := T.lo)) (castTo_proper (x := U.hi))
      obtain ⟨c5, e5, _⟩ := crDiv_total (R := R) (castTo_proper (x := T.hi)) (castTo_proper (x := U.lo))
      obtain ⟨c8, e8, _⟩ := crDiv_total (R := R) (castTo_proper (x := T.hi)) (castTo_proper (x := U.hi))
      rw [divExc_iff hU e1 e4 e5 e8]
      exact iff_of_false (fun g => g.1.elim hp hn) (fun g => g.1.elim hp hn)

/-! ### the intermediate type -/

private theorem pow_mono {a b : Nat} : 8 * 2 ^ a ≤ 8 * 2 ^ b ↔ a ≤ b :=
  ⟨fun h => (Nat.pow_le_pow_iff_right (by decide : 1 < 2)).1 (by omega),
    fun h => Nat.mul_le_mul_left _ (Nat.pow_le_pow_right (by decide) h)⟩

private theorem pow_mono1 {a b : Nat} : 8 * 2 ^ a + 1 ≤ 8 * 2 ^ b ↔ a + 1 ≤ b := by
  constructor
  · intro h
    by_contra hc
    have := (pow_mono (a := b) (b := a)).2 (by omega)
    omega
  · intro h
    have := (pow_mono (a := a + 1) (b := b)).2 h
    have : 0 < 2 ^ a := Nat.two_pow_pos a
    rw [Nat.pow_succ] at *; omega

private theorem pow_mono2 {a b : Nat} : 8 * 2 ^ a - 1 ≤ 8 * 2 ^ b ↔ a ≤ b := by
  constructor
  · intro h
    by_contra hc
    have h1 := (pow_mono (a := b + 1) (b := a)).2 (by omega)
    have : 0 < 2 ^ b := Nat.two_pow_pos b
    rw [Nat.pow_succ] at h1; omega
  · intro h
    have := (pow_mono (a := a) (b := b)).2 h; omega

private theorem room_iff {R X : ITy} (hX : X.Ok) (k : Nat) :
    Nat.min (8 * 2 ^ Arch.maxLg) (X.digits + (if R.signed then 1 else 0)) ≤ 8 * 2 ^ k ↔ roomLg R X ≤ k := by
  have hX : X.lg ≤ Arch.maxLg := hX
  have hm := (pow_mono (a := X.lg) (b := Arch.maxLg)).2 hX
  have hb : X.bits = 8 * 2 ^ X.lg := rfl
  have mn : ∀ {a b : Nat}, b ≤ a → Nat.min a b = b := fun h => Nat.min_eq_right h
  unfold roomLg
  rcases hR : R.signed with _ | _ <;> rcases hs : X.signed with _ | _
  · have := ITy.digits_unsigned hs
    simp only [this, hb, Bool.false_eq_true, if_false, Nat.add_zero, false_and]
    rw [mn hm, pow_mono]
  · have : X.digits = 8 * 2 ^ X.lg - 1 := by have := ITy.digits_signed hs; omega
    simp only [this, Bool.false_eq_true, if_false, Nat.add_zero, false_and]
    rw [mn (by omega), pow_mono2]
  · have := ITy.digits_unsigned hs
    simp only [this, hb, if_true, and_self]
    by_cases hl : X.lg = Arch.maxLg
    · rw [hl, show Nat.min (8 * 2 ^ Arch.maxLg) (8 * 2 ^ Arch.maxLg + 1) = 8 * 2 ^ Arch.maxLg from Nat.min_eq_left (by omega),
        show Nat.min Arch.maxLg (Arch.maxLg + 1) = Arch.maxLg from Nat.min_eq_left (by omega), pow_mono]
    · rw [mn (pow_mono1.2 (by omega)), mn (by omega), pow_mono1]
  · have := ITy.digits_signed hs
    simp only [this, hb, if_true, Bool.true_eq_false, and_false, if_false]
    rw [mn hm, pow_mono]

/-- the type in which a checked quotient is computed -/
theorem tempBase_room {R : ITy} (hR : R.Ok) {T U : Opd} (hT : T.base.Ok) (hU : U.base.Ok) :
    tempBase R T U = .ret (room R T U) := by
  have hd : tUIntMax.digits = 8 * 2 ^ Arch.maxLg := ITy.digits_unsigned (T := tUIntMax) rfl
  have key : ∀ k : Nat, tempBits R T U ≤ ((8 * 2 ^ k : Nat) : Int) ↔ (room R T U).lg ≤ k := by
    intro k
    have h1 := room_iff (R := R) hR k
    have h2 := room_iff (R := R) hT k
    have h3 := room_iff (R := R) hU k
    have hr : roomLg R R = R.lg := by unfold roomLg; rw [if_neg (by rintro ⟨a, b⟩; rw [a] at b; cases b)]
    unfold tempBits room
    rw [hd]
    dsimp only
    rw [Int.ofNat_le]
    rw [hr] at h1
    generalize (if R.signed = true then 1 else 0 : Nat) = s at *
    generalize 8 * 2 ^ Arch.maxLg = m at *
    generalize 8 * 2 ^ k = l at *
    have e1 : ∀ a b : Nat, Nat.min a b = min a b := fun _ _ => rfl
    have e2 : ∀ a b : Nat, Nat.max a b = max a b := fun _ _ => rfl
    simp only [e1, e2] at *
    omega
  have hk := key Arch.maxLg
  have hr : (room R T U).lg ≤ Arch.maxLg := by
    have r : ∀ {X : ITy}, X.Ok → roomLg R X ≤ Arch.maxLg := fun {X} h => by
      unfold roomLg; split
      · exact Nat.min_le_left _ _
      · exact h
    exact Nat.max_le.2 ⟨hR, Nat.max_le.2 ⟨r hT, r hU⟩⟩
  obtain ⟨B, e, hs, _, hn, hmin⟩ := leastType_spec (s := R.signed) (hk.2 hr)
  unfold tempBase
  rw [e]
  have h1 := hmin (room R T U) ((key (room R T U).lg).2 (Nat.le_refl _))
  have h2 := (key B.lg).1 hn
  congr 1
  rcases B with ⟨s, l⟩
  have hs : s = (room R T U).signed := hs
  have : l = (room R T U).lg := Nat.le_antisymm h1 h2
  subst hs this
  rfl

/-! ### the unchecked division -/

private theorem quot_promote {R : ITy} {a b : Int} (ha : R.In a) (hb : R.In b) (h0 : b ≠ 0)
    (hc : ¬ (promote R = R ∧ R.signed = true ∧ a = R.min ∧ b = -1)) : (promote R).In (a.tdiv b) := by
  have pa := in_promote ha; have pb := in_promote hb
  refine tdiv_in pa pb h0 ?_
  rintro ⟨g1, g2, g3⟩
  by_cases hl : Arch.intLg ≤ R.lg
  · have e := promote_of_ge hl
    rw [e] at g1 g3
    exact hc ⟨e, g1, g3, g2⟩
  · have e : promote R = tInt := by unfold promote; rw [if_pos (by omega)]
    have h1 := ha.1
    have h2 := ITy.min_eq tInt
    have h3 := ITy.min_eq R
    rw [e] at g3
    have h4 : (tInt : ITy).signed = true := rfl
    rw [h4, if_pos rfl] at h2
    have h5 : R.max < (tInt : ITy).max := by
      unfold ITy.max
      have hd : R.digits < (tInt : ITy).digits := by
        have a1 := ITy.digits_signed h4
        have a2 := ITy.bits_lt (T := R) (U := tInt) (by simp only [tInt]; omega)
        have a3 : 2 * R.bits ≤ (tInt : ITy).bits := by
          unfold ITy.bits
          have := (pow_mono (a := R.lg + 1) (b := (tInt : ITy).lg)).2 (by simp only [tInt]; omega)
          rw [Nat.pow_succ] at this; omega
        have a4 := digits_le_bits R
        have := R.bits_pos
        omega
      have := Int.pow_lt_pow_of_lt (a := 2) (by decide) hd
      omega
    have h6 := R.max_ge
    split at h3 <;> omega

omit [Arch] in
private theorem min_quot {R : ITy} (hs : R.signed = true) : ¬ R.In (R.min.tdiv (-1)) := by
  intro h
  rw [Int.tdiv_neg, Int.tdiv_one] at h
  have := h.2
  have e := ITy.min_eq R
  rw [hs, if_pos rfl] at e
  omega

theorem cDiv_closed {R : ITy} {a b : Int} (ha : R.In a) (hb : R.In b) :
    cDiv R R a b = if b = 0 ∨ (promote R = R ∧ R.signed = true ∧ a = R.min ∧ b = -1) then .fault .ub else .ret (a.tdiv b) := by
  have pa := in_promote ha; have pb := in_promote hb
  unfold cDiv
  rw [uac_self]
  dsimp only
  rw [conv_of_in pa, conv_of_in pb]
  by_cases h0 : b = 0
  · rw [if_pos h0, if_pos (Or.inl h0)]
  · rw [if_neg h0]
    by_cases hc : promote R = R ∧ R.signed = true ∧ a = R.min ∧ b = -1
    · rw [if_pos (Or.inr hc)]
      obtain ⟨h1, h2, rfl, rfl⟩ := hc
      unfold cWrap
      rw [h1, h2, if_pos rfl, if_neg (min_quot h2)]
    · rw [if_neg (fun g => g.elim h0 hc)]
      exact cWrap_of_in (quot_promote ha hb h0 hc)

theorem cMod_closed {R : ITy} {a b : Int} (ha : R.In a) (hb : R.In b) :
    cMod R R a b = if b = 0 ∨ (promote R = R ∧ R.signed = true ∧ a = R.min ∧ b = -1) then .fault .ub else .ret (a.tmod b) := by
  have pa := in_promote ha; have pb := in_promote hb
  unfold cMod
  rw [uac_self]
  dsimp only
  rw [conv_of_in pa, conv_of_in pb]
  by_cases h0 : b = 0
  · rw [if_pos h0, if_pos (Or.inl h0)]
  · rw [if_neg h0]
    by_cases hc : promote R = R ∧ R.signed = true ∧ a = R.min ∧ b = -1
    · rw [if_pos (Or.inr hc)]
      obtain ⟨h1, h2, rfl, rfl⟩ := hc
      rw [h1, if_pos ⟨h2, min_quot h2⟩]
    · rw [if_neg (fun g => g.2 (quot_promote ha hb h0 hc)), if_neg (fun g => g.elim h0 hc)]

/-! ### the outcome -/

theorem lit_ends {B : ITy} {T : Opd} (hT : T.Wf) {t : Int} (ht : T.Has t) (h : B.In t) : litOk B T = true := by
  by_cases hl : ∀ b, T.kind ≠ .lit b
  · exact litOk_not_lit hl
  · push Not at hl
    obtain ⟨b, hb⟩ := hl
    have e := hT.2.2.2.2.2 b hb
    have h1 : T.lo = t := by have := ht.1; have := ht.2; omega
    have h2 : T.hi = t := by omega
    exact litOk_in hT (h1 ▸ h) (h2 ▸ h)

/-- the outcome of `/` in closed form -/
theorem runDiv_closed {p : EP} (hp : p.ae = .throw ∨ p.ae = .trap) {R : ITy} (hR : R.Ok) {T U : Opd} (hT : T.Wf) (hU : U.Wf)
    {t u : Int} (ht : T.Has t) (hu : U.Has u) :
    runDiv p R T U t u =
      if DivUnchecked R T U then
        if conv R u = 0 ∨ (promote R = R ∧ R.signed = true ∧ conv R t = R.min ∧ conv R u = -1) then .fault .ub
        else .ret (conv R ((conv R t).tdiv (conv R u)))
      else if LitsOk (room R T U) T U ∧ p.ae = .throw then
        (quotIn (room R T U) t u >>= fun v => Out.ret (conv R v)) else .fault .illFormed := by
  have hx := divExc_unchecked (R := R) (T := T) (U := U) hT.2.2.2.1 hU.2.2.2.1
  obtain ⟨ri, e, pl, pu, _⟩ := divItv_total (R := R) (t := ⟨castTo R T.lo, castTo R T.hi⟩)
    (u := ⟨castTo R U.lo, castTo R U.hi⟩) castTo_proper castTo_proper castTo_proper castTo_proper
  have hd : divExc R T U = divExcPossible R ⟨castTo R U.lo, castTo R U.hi⟩ ri := by unfold divExc; rw [e]
  unfold runDiv runDivMod
  rw [resItv_of hT hU e, castItv_eq hU]
  simp only [Out.ret_bind]
  rw [← hd]
  by_cases hh : divExc R T U = true
  · have hn : ¬ DivUnchecked R T U := fun g => by rw [hx.2 g] at hh; cases hh
    rw [if_pos hh, if_neg hn, tempBase_room hR hT.1 hU.1]
    simp only [Out.ret_bind]
    rcases hp with hp | hp
    · refine (checkedDiv_throw hp hT hU ht hu).trans ?_
      by_cases l : LitsOk (room R T U) T U
      · rw [if_pos l, if_pos ⟨l, hp⟩]
      · rw [if_neg l, if_neg (fun g => l g.1)]
    · rw [castStatics hT hU, if_neg (fun g => g.2 hp), if_neg (fun g => by rw [hp] at g; cases g.2)]
  · have hn : DivUnchecked R T U := hx.1 (by simpa using hh)
    rw [if_neg hh, if_pos hn, cDiv_closed (conv_in R t) (conv_in R u)]
    split <;> rfl

omit [Arch] in
/-- the divisor is not zero if the check is left out -/
theorem unchecked_ne {R : ITy} {T U : Opd} (h : DivUnchecked R T U) {u : Int} (hu : U.Has u) : u ≠ 0 := by
  rintro rfl; have := h.1; have := hu.1; have := hu.2; omega

omit [Arch] in
private theorem quot_room {B : ITy} {t u : Int} (ht : B.In t) (hu : B.In u) (h0 : u ≠ 0) (h1 : ¬ B.max < t.tdiv u) :
    B.In (t.tdiv u) := by
  refine tdiv_in ht hu h0 ?_
  rintro ⟨g1, g2, g3⟩
  rw [g2, Int.tdiv_neg, Int.tdiv_one, g3] at h1
  have := ITy.min_eq B; rw [g1] at this; simp at this; omega

private theorem quotIn_room (B : ITy) (t u : Int) :
    (quotIn B t u = .ret (t.tdiv u) ∧ u ≠ 0 ∧ B.In t ∧ B.In u ∧ B.In (t.tdiv u)) ∨
    ((∃ e, quotIn B t u = .thrown e) ∧ ¬ (u ≠ 0 ∧ B.In t ∧ B.In u ∧ B.In (t.tdiv u))) := by
  unfold quotIn
  rcases ct : castTo B t with a | e
  · rcases cu : castTo B u with b | e
    · obtain ⟨rfl, hti⟩ := castTo_ok ct
      obtain ⟨rfl, hui⟩ := castTo_ok cu
      dsimp only
      by_cases h0 : b = 0
      · rw [if_pos h0]; exact Or.inr ⟨⟨_, rfl⟩, fun g => g.1 h0⟩
      · rw [if_neg h0]
        by_cases h1 : B.max < a.tdiv b
        · rw [if_pos h1]; exact Or.inr ⟨⟨_, rfl⟩, fun g => by have := g.2.2.2.2; omega⟩
        · rw [if_neg h1]; exact Or.inl ⟨rfl, h0, hti, hui, quot_room hti hui h0 h1⟩
    · refine Or.inr ⟨⟨_, rfl⟩, fun g => ?_⟩
      rw [castTo_of_in g.2.2.1] at cu; cases cu
  · refine Or.inr ⟨⟨_, rfl⟩, fun g => ?_⟩
    rw [castTo_of_in g.2.1] at ct; cases ct

/-- for which values `/` goes wrong -/
theorem runDiv_exact {p : EP} (hp : p.ae = .throw) {R : ITy} (hR : R.Ok) {T U : Opd} (hT : T.Wf) (hU : U.Wf) {t u : Int}
    (ht : T.Has t) (hu : U.Has u) : QuotRight (runDiv p R T U t u) t u ↔ ¬ QuotWrong R T U t u := by
  rw [runDiv_closed (Or.inl hp) hR hT hU ht hu]
  unfold QuotWrong
  by_cases hn : DivUnchecked R T U
  · rw [if_pos hn, if_pos hn]
    by_cases hc : conv R u = 0 ∨ (promote R = R ∧ R.signed = true ∧ conv R t = R.min ∧ conv R u = -1)
    · rw [if_pos hc]
      refine iff_of_false ?_ (fun g => g (by tauto))
      rintro (⟨g, _⟩ | ⟨e, g⟩ | g) <;> cases g
    · rw [if_neg hc]
      constructor
      · rintro (⟨g, _⟩ | ⟨e, g⟩ | g) w
        · have := Out.ret.inj g
          tauto
        · cases g
        · cases g
      · intro w
        refine Or.inl ⟨?_, unchecked_ne hn hu⟩
        congr 1
        by_contra g
        exact w (Or.inr (Or.inr g))
  · rw [if_neg hn, if_neg hn]
    by_cases l : LitsOk (room R T U) T U
    · rw [if_pos ⟨l, hp⟩]
      rcases quotIn_room (room R T U) t u with ⟨e, h0, h1, h2, h3⟩ | ⟨⟨x, e⟩, h⟩ <;> rw [e]
      · rw [Out.ret_bind]
        constructor
        · rintro (⟨g, _⟩ | ⟨e, g⟩ | g) w
          · have := Out.ret.inj g
            exact w.2.2.2.2 (this ▸ conv_in R _)
          · cases g
          · cases g
        · intro w
          have : R.In (t.tdiv u) := by
            by_contra hc; exact w ⟨h0, h1, h2, h3, hc⟩
          exact Or.inl ⟨by rw [conv_of_in this], h0⟩
      · exact iff_of_true (Or.inr (Or.inl ⟨_, rfl⟩)) (fun g => h ⟨g.1, g.2.1, g.2.2.1, g.2.2.2.1⟩)
    · rw [if_neg (fun g => l g.1)]
      exact iff_of_true (Or.inr (Or.inr rfl)) (fun g => l ⟨lit_ends hT ht g.2.1, lit_ends hU hu g.2.2.1⟩)

/-- when `/` throws -/
theorem runDiv_decides {p : EP} (hp : p.ae = .throw ∨ p.ae = .trap) {R : ITy} (hR : R.Ok) {T U : Opd} (hT : T.Wf) (hU : U.Wf)
    {t u : Int} (ht : T.Has t) (hu : U.Has u) :
    (∀ e, runDiv p R T U t u = .thrown e → ¬ QuotFits R T U t u) ∧ (∀ v, runDiv p R T U t u = .ret v → QuotFits R T U t u) := by
  rw [runDiv_closed hp hR hT hU ht hu]
  by_cases hn : DivUnchecked R T U
  · rw [if_pos hn]
    refine ⟨fun e h => ?_, fun v h => ⟨unchecked_ne hn hu, Or.inl hn⟩⟩
    split at h <;> cases h
  · rw [if_neg hn]
    by_cases l : LitsOk (room R T U) T U ∧ p.ae = .throw
    · rw [if_pos l]
      rcases quotIn_room (room R T U) t u with ⟨e, h0, h1, h2, h3⟩ | ⟨⟨x, e⟩, h⟩ <;> rw [e]
      · exact ⟨fun _ g => (nomatch g), fun _ _ => ⟨h0, Or.inr ⟨h1, h2, h3⟩⟩⟩
      · exact ⟨fun _ _ g => h ⟨g.1, g.2.resolve_left hn⟩, fun _ g => (nomatch g)⟩
    · rw [if_neg l]
      exact ⟨fun _ g => (nomatch g), fun _ g => (nomatch g)⟩

end
end Verif
