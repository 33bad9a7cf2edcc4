import Verif.Proofs.SafeDiv

/-!
The result interval of division contains all quotients.
-/

namespace Verif
open Spec
section
variable [Arch]

omit [Arch] in
/-- `|x / y| ≤ |x|` -/
theorem tdiv_abs {x y L U : Int} (h0 : y ≠ 0) (h1 : L ≤ x) (h2 : L ≤ -x) (h3 : x ≤ U) (h4 : -x ≤ U) :
    L ≤ x.tdiv y ∧ x.tdiv y ≤ U := by
  have key : ∀ {y : Int}, 0 < y → L ≤ x.tdiv y ∧ x.tdiv y ≤ U := by
    intro y hy
    rcases Int.le_total 0 x with hx | hx
    · have a := Int.tdiv_nonneg hx (show 0 ≤ y by omega)
      have b := tdiv_anti_den (a := x) (c := 1) (y := y) hx (by omega) (by omega)
      rw [Int.tdiv_one] at b; omega
    · have a := Int.tdiv_nonneg (a := -x) (b := y) (by omega) (by omega)
      rw [Int.neg_tdiv] at a
      have b := tdiv_mono_den (a := x) (c := 1) (y := y) hx (by omega) (by omega)
      rw [Int.tdiv_one] at b; omega
  rcases Int.lt_or_le 0 y with hy | hy
  · exact key hy
  · have hn : 0 < -y := by omega
    -- x / y = (-x) / (-y)
    have e : x.tdiv y = -(x.tdiv (-y)) := by rw [Int.tdiv_neg, Int.neg_neg]
    rw [e]
    rcases Int.le_total 0 x with hx | hx
    · have a := Int.tdiv_nonneg hx (show 0 ≤ -y by omega)
      have b := tdiv_anti_den (a := x) (c := 1) (y := -y) hx (by omega) (by omega)
      rw [Int.tdiv_one] at b; omega
    · have a := Int.tdiv_nonneg (a := -x) (b := -y) (by omega) (by omega)
      rw [Int.neg_tdiv] at a
      have b := tdiv_mono_den (a := x) (c := 1) (y := -y) hx (by omega) (by omega)
      rw [Int.tdiv_one] at b; omega

/-- the eight corners contain all quotients -/
theorem divElse_contains {R : ITy} {t u : Itv CR} {x y : Int} (h0 : y ≠ 0)
    (ptl : Proper R t.l) (ptu : Proper R t.u) (pul : Proper R u.l) (puu : Proper R u.u)
    (htl : t.l ≠ .err .positive_overflow_error) (htu : t.u ≠ .err .negative_overflow_error) (vtu : ¬ Vague t.u)
    (vuu : ¬ Vague u.u) (huu : u.u ≠ .err .negative_overflow_error)
    (hx : R.signed = false → 0 ≤ x ∧ 0 ≤ y ∧ t.l ≠ .err .negative_overflow_error)
    (hn : thenCond R u = false)
    (xl : LowerOk R t.l x) (xu : UpperOk R t.u x) (yu : UpperOk R u.u y) :
    ∃ i, divItv R t u = .ret i ∧ Proper R i.l ∧ Proper R i.u ∧ Between R i.l i.u (x.tdiv y) := by
  obtain ⟨c1, e1, p1, g1⟩ := crDiv_total ptl pul
  obtain ⟨c4, e4, p4, _⟩ := crDiv_total ptl puu
  obtain ⟨c5, e5, p5, _⟩ := crDiv_total ptu pul
  obtain ⟨c8, e8, p8, _⟩ := crDiv_total ptu puu
  obtain ⟨c2, e2, p2, _⟩ := crDiv_total ptl (minus_one_proper R)
  obtain ⟨c3, e3, p3, _⟩ := crDiv_total (R := R) (d := .ok 1) ptl R.in_one
  obtain ⟨c6, e6, p6, _⟩ := crDiv_total ptu (minus_one_proper R)
  obtain ⟨c7, e7, p7, _⟩ := crDiv_total (R := R) (d := .ok 1) ptu R.in_one
  have hp : ∀ c ∈ [c1, c2, c3, c4, c5, c6, c7, c8], Proper R c := by
    intro c hc; simp at hc
    rcases hc with rfl | rfl | rfl | rfl | rfl | rfl | rfl | rfl <;> assumption
  have hm := R.min_le_max
  have main : ¬ Vague c1 →
      (∀ L, R.min ≤ L → L ≤ R.max + 1 →
        (∀ c ∈ [c1, c2, c3, c4, c5, c6, c7, c8], ¬ Vague c → L ≤ c.key R) → L ≤ x.tdiv y) ∧
      (∀ U, R.min - 1 ≤ U → U ≤ R.max →
        (∀ c ∈ [c1, c2, c3, c4, c5, c6, c7, c8], ¬ Vague c → c.key R ≤ U) → x.tdiv y ≤ U) := by
    intro v1
    have vtl : ¬ Vague t.l := fun h => v1 (g1 (Or.inl h))
    have one : R.In 1 := R.in_one
    rcases hs : R.signed with _ | _
    · -- unsigned
      obtain ⟨x0, y0, nl⟩ := hx hs
      have y1 : 0 < y := by omega
      constructor
      · intro L h1 h2 h
        rcases t.l.cases4 with ⟨a, ea⟩ | ea | ea | ea
        · rw [ea] at e4 xl ptl
          have xl : a ≤ x := xl
          have pa : R.In a := ptl
          have a0 : 0 ≤ a := pa.nonneg hs
          rcases u.u.cases4 with ⟨d, eu⟩ | eu | eu | eu
          · rw [eu] at e4 yu puu
            have yu : y ≤ d := yu
            obtain ⟨_, q, _, v', l, _⟩ := crDiv_key ptl puu (by omega)
            obtain rfl : _ = c4 := by simpa [q] using e4
            have := l L h2 (h _ (by simp) v')
            have := tdiv_anti_den a0 y1 yu
            have := tdiv_mono_num y1 xl
            omega
          · exact absurd eu huu
          · rw [eu, (crDiv_ok_marker ptl).2] at e4
            obtain rfl : CR.ok 0 = c4 := by simpa using e4
            have : L ≤ 0 := h _ (by simp) (not_vague_ok _)
            have := Int.tdiv_nonneg x0 y0
            omega
          · exact absurd eu vuu
        · exact absurd ea nl
        · exact absurd ea htl
        · exact absurd ea vtl
      · intro U h1 h2 h
        rcases t.u.cases4 with ⟨b, ea⟩ | ea | ea | ea
        · rw [ea] at e7 xu ptu
          have xu : x ≤ b := xu
          obtain ⟨_, q, _, v', _, l, _⟩ := crDiv_key ptu one (by omega)
          obtain rfl : _ = c7 := by simpa [q] using e7
          have := l U h2 (h _ (by simp) v')
          rw [Int.tdiv_one] at this
          have := tdiv_anti_den x0 (show (0 : Int) < 1 by omega) (show 1 ≤ y by omega)
          rw [Int.tdiv_one] at this
          omega
        · exact absurd ea htu
        · rw [ea, crDiv_pos_ok one (by omega), if_neg (by omega)] at e7
          obtain rfl : _ = c7 := by simpa using e7
          have := h _ (by simp) not_vague_pos
          simp only [CR.key] at this; omega
        · exact absurd ea vtu
    · -- signed
      have mi : R.In (-1) := by
        have e := ITy.min_eq R
        rw [hs] at e; simp at e
        have := R.max_ge
        exact ⟨by omega, by omega⟩
      rw [conv_of_in mi] at e2 e6
      constructor
      · intro L h1 h2 h
        have k1 : L ≤ x ∧ L ≤ -x := by
          have A : ∀ a, t.l = .ok a → L ≤ a ∧ L ≤ -a ∧ a ≤ x := by
            intro a ea
            rw [ea] at e2 e3 xl ptl
            obtain ⟨_, q, _, v', l, _⟩ := crDiv_key ptl one (by omega)
            obtain rfl : _ = c3 := by simpa [q] using e3
            have k := l L h2 (h _ (by simp) v')
            obtain ⟨_, q, _, v', l, _⟩ := crDiv_key ptl mi (by omega)
            obtain rfl : _ = c2 := by simpa [q] using e2
            have k' := l L h2 (h _ (by simp) v')
            rw [Int.tdiv_one] at k; rw [Int.tdiv_neg, Int.tdiv_one] at k'
            exact ⟨k, k', xl⟩
          have B : ∀ b, t.u = .ok b → L ≤ b ∧ L ≤ -b ∧ x ≤ b := by
            intro a ea
            rw [ea] at e6 e7 xu ptu
            obtain ⟨_, q, _, v', l, _⟩ := crDiv_key ptu one (by omega)
            obtain rfl : _ = c7 := by simpa [q] using e7
            have k := l L h2 (h _ (by simp) v')
            obtain ⟨_, q, _, v', l, _⟩ := crDiv_key ptu mi (by omega)
            obtain rfl : _ = c6 := by simpa [q] using e6
            have k' := l L h2 (h _ (by simp) v')
            rw [Int.tdiv_one] at k; rw [Int.tdiv_neg, Int.tdiv_one] at k'
            exact ⟨k, k', xu⟩
          rcases t.l.cases4 with ⟨a, ea⟩ | ea | ea | ea
          · rcases t.u.cases4 with ⟨b, eb⟩ | eb | eb | eb
            · have := A a ea; have := B b eb; omega
            · exact absurd eb htu
            · rw [eb, crDiv_pos_ok mi (by omega), if_pos (by omega)] at e6
              obtain rfl : _ = c6 := by simpa using e6
              have := h _ (by simp) not_vague_neg
              simp only [CR.key] at this; omega
            · exact absurd eb vtu
          · rw [ea, crDiv_neg_ok one (by omega), if_neg (by omega)] at e3
            obtain rfl : _ = c3 := by simpa using e3
            have := h _ (by simp) not_vague_neg
            simp only [CR.key] at this; omega
          · exact absurd ea htl
          · exact absurd ea vtl
        exact (tdiv_abs h0 k1.1 k1.2 (show x ≤ (if 0 ≤ x then x else -x) by split <;> omega)
          (by split <;> omega)).1
      · intro U h1 h2 h
        have k1 : x ≤ U ∧ -x ≤ U := by
          have A : ∀ a, t.l = .ok a → a ≤ U ∧ -a ≤ U ∧ a ≤ x := by
            intro a ea
            rw [ea] at e2 e3 xl ptl
            obtain ⟨_, q, _, v', _, l, _⟩ := crDiv_key ptl one (by omega)
            obtain rfl : _ = c3 := by simpa [q] using e3
            have k := l U h2 (h _ (by simp) v')
            obtain ⟨_, q, _, v', _, l, _⟩ := crDiv_key ptl mi (by omega)
            obtain rfl : _ = c2 := by simpa [q] using e2
            have k' := l U h2 (h _ (by simp) v')
            rw [Int.tdiv_one] at k; rw [Int.tdiv_neg, Int.tdiv_one] at k'
            exact ⟨k, k', xl⟩
          have B : ∀ b, t.u = .ok b → b ≤ U ∧ -b ≤ U ∧ x ≤ b := by
            intro a ea
            rw [ea] at e6 e7 xu ptu
            obtain ⟨_, q, _, v', _, l, _⟩ := crDiv_key ptu one (by omega)
            obtain rfl : _ = c7 := by simpa [q] using e7
            have k := l U h2 (h _ (by simp) v')
            obtain ⟨_, q, _, v', _, l, _⟩ := crDiv_key ptu mi (by omega)
            obtain rfl : _ = c6 := by simpa [q] using e6
            have k' := l U h2 (h _ (by simp) v')
            rw [Int.tdiv_one] at k; rw [Int.tdiv_neg, Int.tdiv_one] at k'
            exact ⟨k, k', xu⟩
          rcases t.l.cases4 with ⟨a, ea⟩ | ea | ea | ea
          · rcases t.u.cases4 with ⟨b, eb⟩ | eb | eb | eb
            · have := A a ea; have := B b eb; omega
            · exact absurd eb htu
            · rw [eb, crDiv_pos_ok one (by omega), if_neg (by omega)] at e7
              obtain rfl : _ = c7 := by simpa using e7
              have := h _ (by simp) not_vague_pos
              simp only [CR.key] at this; omega
            · exact absurd eb vtu
          · rw [ea, crDiv_neg_ok mi (by omega), if_pos (by omega)] at e2
            obtain rfl : _ = c2 := by simpa using e2
            have := h _ (by simp) not_vague_pos
            simp only [CR.key] at this; omega
          · exact absurd ea htl
          · exact absurd ea vtl
        exact (tdiv_abs h0 (show (if 0 ≤ x then -x else x) ≤ x by split <;> omega)
          (by split <;> omega) k1.1 k1.2).2
  obtain ⟨m, M, e, pm, pM, hl, hu⟩ := minmax_bounds (R := R) (z := x.tdiv y) hp
    (fun v => (main v).1) (fun v => (main v).2)
  refine ⟨⟨m, M⟩, ?_, pm, pM, hl, hu⟩
  unfold divItv divModItv
  change (if thenCond R u = true then _ else _) = _
  rw [if_neg (by rw [hn]; decide)]
  simp only [Out.ret_bind, e1, e2, e3, e4, e5, e6, e7, e8, e]

/-- an interval whose first corner is vague is vague at both ends -/
theorem divItv_vague {R : ITy} {t u : Itv CR} (ptl : Proper R t.l) (ptu : Proper R t.u) (pul : Proper R u.l)
    (puu : Proper R u.u) (h : Vague t.l ∨ Vague u.l) :
    ∃ ri, divItv R t u = .ret ri ∧ Proper R ri.l ∧ Proper R ri.u ∧ Vague ri.l ∧ Vague ri.u := by
  obtain ⟨c1, e1, p1, g1⟩ := crDiv_total ptl pul
  obtain ⟨c4, e4, p4, _⟩ := crDiv_total ptl puu
  obtain ⟨c5, e5, p5, _⟩ := crDiv_total ptu pul
  obtain ⟨c8, e8, p8, _⟩ := crDiv_total ptu puu
  have v1 := g1 h
  by_cases hth : thenCond R u = true
  · refine ⟨⟨c1, c1⟩, ?_, p1, p1, v1, v1⟩
    unfold divItv divModItv
    change (if thenCond R u = true then _ else _) = _
    rw [if_pos hth]
    simp only [itvDiv, excludes_of_then hth, assertThat, if_true, Out.ret_bind, corners, minmax4, e1, e4, e5, e8]
    have hp : ∀ c ∈ [c1, c4, c5, c8], Proper R c := by
      intro c hc; simp at hc; rcases hc with rfl | rfl | rfl | rfl <;> assumption
    obtain ⟨m, M, e, hmem, hMem, hh⟩ := minmax_cr c1 [c4, c5, c8] hp
    rcases hh with ⟨va, rfl, rfl⟩ | ⟨va, _⟩
    · rw [e]; rfl
    · exact absurd v1 va
  · obtain ⟨c2, e2, p2, _⟩ := crDiv_total ptl (minus_one_proper R)
    obtain ⟨c3, e3, p3, _⟩ := crDiv_total (R := R) (d := .ok 1) ptl R.in_one
    obtain ⟨c6, e6, p6, _⟩ := crDiv_total ptu (minus_one_proper R)
    obtain ⟨c7, e7, p7, _⟩ := crDiv_total (R := R) (d := .ok 1) ptu R.in_one
    refine ⟨⟨c1, c1⟩, ?_, p1, p1, v1, v1⟩
    unfold divItv divModItv
    change (if thenCond R u = true then _ else _) = _
    rw [if_neg hth]
    simp only [Out.ret_bind, e1, e2, e3, e4, e5, e6, e7, e8]
    have hp : ∀ c ∈ [c1, c2, c3, c4, c5, c6, c7, c8], Proper R c := by
      intro c hc; simp at hc
      rcases hc with rfl | rfl | rfl | rfl | rfl | rfl | rfl | rfl <;> assumption
    obtain ⟨m, M, e, hmem, hMem, hh⟩ := minmax_cr c1 [c2, c3, c4, c5, c6, c7, c8] hp
    rcases hh with ⟨va, rfl, rfl⟩ | ⟨va, _⟩
    · rw [e]; rfl
    · exact absurd v1 va

omit [Arch] in
theorem castTo_pos_marker {R : ITy} {x : Int} (h : castTo R x = .err .positive_overflow_error) : R.max < x := by
  have := castTo_describes (R := R) x
  rw [h] at this; exact this
omit [Arch] in
theorem castTo_neg_marker {R : ITy} {x : Int} (h : castTo R x = .err .negative_overflow_error) :
    x < R.min ∧ R.signed = true := by
  have := castTo_describes (R := R) x
  rw [h] at this
  refine ⟨this, ?_⟩
  have this : x < R.min := this
  by_contra hs
  have hs : R.signed = false := by simpa using hs
  have := R.min_nonpos
  unfold castTo at h
  rw [if_pos ⟨hs, by omega⟩] at h
  cases h

/-- the result interval of `/` contains all quotients of operands whose ranges are not beyond `R` -/
theorem divItv_contains {R : ITy} {T U : Opd} (hTf : Fits R T) (hUf : Fits R U) {x y : Int} (hx : T.Has x)
    (hy : U.Has y) (h0 : y ≠ 0) :
    ∃ ri, divItv R ⟨castTo R T.lo, castTo R T.hi⟩ ⟨castTo R U.lo, castTo R U.hi⟩ = .ret ri ∧
      Proper R ri.l ∧ Proper R ri.u ∧ Between R ri.l ri.u (x.tdiv y) := by
  have hx1 := hx.1; have hx2 := hx.2; have hy1 := hy.1; have hy2 := hy.2
  have f1 := hTf.1; have f2 := hUf.1
  by_cases v : Vague (castTo R T.lo) ∨ Vague (castTo R U.lo)
  · obtain ⟨ri, e, p1, p2, v1, v2⟩ := divItv_vague (R := R) (t := ⟨castTo R T.lo, castTo R T.hi⟩)
      (u := ⟨castTo R U.lo, castTo R U.hi⟩) castTo_proper castTo_proper castTo_proper castTo_proper v
    exact ⟨ri, e, p1, p2, vague_lowerOk v1 p1, vague_upperOk v2 p2⟩
  have nT := hTf.in_of_nonvague (by omega) (fun h => v (Or.inl h))
  have nU := hUf.in_of_nonvague (by omega) (fun h => v (Or.inr h))
  have o1 := castTo_of_in nT.1; have o2 := castTo_of_in nT.2
  have o3 := castTo_of_in nU.1; have o4 := castTo_of_in nU.2
  by_cases hth : thenCond R ⟨castTo R U.lo, castTo R U.hi⟩ = true
  · obtain ⟨i, ei, p1, p2, b1, b2⟩ := itvDiv_contains (R := R) (t := ⟨castTo R T.lo, castTo R T.hi⟩)
      (u := ⟨castTo R U.lo, castTo R U.hi⟩) (x := x) (y := y) castTo_proper castTo_proper castTo_proper castTo_proper
      (by rw [o1]; simp) (by rw [o2]; simp) (by rw [o2]; exact not_vague_ok _)
      (by rw [o3]; simp) (by rw [o4]; simp) (by rw [o4]; exact not_vague_ok _)
      (excludes_of_then hth) (castTo_lower hx1) (castTo_upper hx2) (castTo_lower hy1) (castTo_upper hy2)
    refine ⟨i, ?_, p1, p2, b1, b2⟩
    unfold divItv divModItv
    change (if thenCond R _ = true then _ else _) = _
    rw [if_pos hth, ei]
  · exact divElse_contains (R := R) (t := ⟨castTo R T.lo, castTo R T.hi⟩)
      (u := ⟨castTo R U.lo, castTo R U.hi⟩) (x := x) (y := y) h0 castTo_proper castTo_proper castTo_proper castTo_proper
      (by rw [o1]; simp) (by rw [o2]; simp) (by rw [o2]; exact not_vague_ok _)
      (by rw [o4]; exact not_vague_ok _) (by rw [o4]; simp)
      (fun hs => ⟨(in_between nT hx).nonneg hs, (in_between nU hy).nonneg hs, by rw [o1]; simp⟩)
      (by simpa using hth) (castTo_lower hx1) (castTo_upper hx2) (castTo_upper hy2)

end
end Verif
