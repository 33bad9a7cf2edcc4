import Verif.TightSpec
import Verif.Proofs.Exact
import Verif.Proofs.TrapIff

/-!
Lemmas for property C77: intervals of exact corner results.
-/

namespace Verif
open Spec
section
variable [Arch]

omit [Arch] in
theorem key_exactOr {R : ITy} (v : Int) : (exactOr R.min R.max v).key R =
    if R.max < v then R.max + 1 else if v < R.min then R.min - 1 else v := by
  unfold exactOr; split_ifs <;> rfl

omit [Arch] in
/-- a clipped value is determined by its position -/
theorem exactOr_of_key {R : ITy} {v w : Int} (h : (exactOr R.min R.max v).key R = (exactOr R.min R.max w).key R) :
    exactOr R.min R.max v = exactOr R.min R.max w := by
  have hz := R.min_nonpos; have hm := R.max_ge
  rw [key_exactOr, key_exactOr] at h
  unfold exactOr
  by_cases h1 : R.max < v <;> by_cases h2 : R.max < w <;> by_cases h3 : v < R.min <;> by_cases h4 : w < R.min <;>
    simp only [h1, h2, h3, h4, if_true, if_false] at h ⊢ <;> first | omega | (rw [h])

omit [Arch] in
theorem key_exactOr_mono {R : ITy} {v w : Int} (h : v ≤ w) :
    (exactOr R.min R.max v).key R ≤ (exactOr R.min R.max w).key R := by
  have hz := R.min_nonpos; have hm := R.max_ge
  rw [key_exactOr, key_exactOr]
  split_ifs <;> omega

omit [Arch] in
private theorem least4 (a b c d : Int) : ∃ m, (m = a ∨ m = b ∨ m = c ∨ m = d) ∧ m ≤ a ∧ m ≤ b ∧ m ≤ c ∧ m ≤ d := by
  rcases Int.le_total a b with h1 | h1 <;> rcases Int.le_total c d with h2 | h2
  · rcases Int.le_total a c with h3 | h3
    · exact ⟨a, by omega⟩
    · exact ⟨c, by omega⟩
  · rcases Int.le_total a d with h3 | h3
    · exact ⟨a, by omega⟩
    · exact ⟨d, by omega⟩
  · rcases Int.le_total b c with h3 | h3
    · exact ⟨b, by omega⟩
    · exact ⟨c, by omega⟩
  · rcases Int.le_total b d with h3 | h3
    · exact ⟨b, by omega⟩
    · exact ⟨d, by omega⟩

omit [Arch] in
private theorem greatest4 (a b c d : Int) : ∃ m, (m = a ∨ m = b ∨ m = c ∨ m = d) ∧ a ≤ m ∧ b ≤ m ∧ c ≤ m ∧ d ≤ m := by
  obtain ⟨m, h, h1, h2, h3, h4⟩ := least4 (-a) (-b) (-c) (-d)
  exact ⟨-m, by omega⟩

/-- corners that are exact results give the interval from the least to the greatest of them -/
theorem corners_exact {R : ITy} {op : CR → CR → Out CR} {a b c d : CR} {x y z w : Int}
    (e1 : op a c = .ret (exactOr R.min R.max x)) (e2 : op a d = .ret (exactOr R.min R.max y))
    (e3 : op b c = .ret (exactOr R.min R.max z)) (e4 : op b d = .ret (exactOr R.min R.max w)) :
    ∃ m M, corners R op ⟨a, b⟩ ⟨c, d⟩ = .ret ⟨exactOr R.min R.max m, exactOr R.min R.max M⟩ ∧
      ((m = x ∨ m = y ∨ m = z ∨ m = w) ∧ m ≤ x ∧ m ≤ y ∧ m ≤ z ∧ m ≤ w) ∧
      ((M = x ∨ M = y ∨ M = z ∨ M = w) ∧ x ≤ M ∧ y ≤ M ∧ z ≤ M ∧ w ≤ M) := by
  obtain ⟨m, hm⟩ := least4 x y z w
  obtain ⟨M, hM⟩ := greatest4 x y z w
  refine ⟨m, M, ?_, hm, hM⟩
  obtain ⟨m', M', e, i1, i2, h⟩ := minmax_cr (R := R) (exactOr R.min R.max x)
    [exactOr R.min R.max y, exactOr R.min R.max z, exactOr R.min R.max w] (by
      intro c hc
      simp only [List.mem_cons, List.not_mem_nil, or_false] at hc
      rcases hc with rfl | rfl | rfl | rfl <;> exact proper_exactOr _)
  rcases h with ⟨v, _⟩ | ⟨_, _, _, h⟩
  · exact absurd v not_vague_exactOr
  have k1 := h _ (show exactOr R.min R.max x ∈ _ by simp) not_vague_exactOr
  have k2 := h _ (show exactOr R.min R.max y ∈ _ by simp) not_vague_exactOr
  have k3 := h _ (show exactOr R.min R.max z ∈ _ by simp) not_vague_exactOr
  have k4 := h _ (show exactOr R.min R.max w ∈ _ by simp) not_vague_exactOr
  have f1 : m' = exactOr R.min R.max m := by
    have up : m'.key R ≤ (exactOr R.min R.max m).key R := by
      rcases hm.1 with q | q | q | q <;> rw [q]
      · exact k1.1
      · exact k2.1
      · exact k3.1
      · exact k4.1
    simp only [List.mem_cons, List.not_mem_nil, or_false] at i1
    rcases i1 with rfl | rfl | rfl | rfl <;> refine exactOr_of_key (Int.le_antisymm up (key_exactOr_mono ?_)) <;> omega
  have f2 : M' = exactOr R.min R.max M := by
    have up : (exactOr R.min R.max M).key R ≤ M'.key R := by
      rcases hM.1 with q | q | q | q <;> rw [q]
      · exact k1.2
      · exact k2.2
      · exact k3.2
      · exact k4.2
    simp only [List.mem_cons, List.not_mem_nil, or_false] at i2
    rcases i2 with rfl | rfl | rfl | rfl <;> refine exactOr_of_key (Int.le_antisymm (key_exactOr_mono ?_) up) <;> omega
  unfold corners minmax4
  rw [e1, e2, e3, e4]
  simp only [Out.ret_bind]
  rw [e, f1, f2]
  rfl

omit [Arch] in
theorem endOr_lo {R : ITy} (m : Int) : endOr R.min (exactOr R.min R.max m) = if R.In m then m else R.min := by
  unfold exactOr
  by_cases h : R.In m
  · have := h.1; have := h.2
    rw [if_neg (show ¬ R.max < m by omega), if_neg (show ¬ m < R.min by omega), if_pos h]; rfl
  · rw [if_neg h]
    split_ifs with h1 h2
    · rfl
    · rfl
    · exact absurd ⟨by omega, by omega⟩ h

omit [Arch] in
theorem endOr_hi {R : ITy} (m : Int) : endOr R.max (exactOr R.min R.max m) = if R.In m then m else R.max := by
  unfold exactOr
  by_cases h : R.In m
  · have := h.1; have := h.2
    rw [if_neg (show ¬ R.max < m by omega), if_neg (show ¬ m < R.min by omega), if_pos h]; rfl
  · rw [if_neg h]
    split_ifs with h1 h2
    · rfl
    · rfl
    · exact absurd ⟨by omega, by omega⟩ h

/-- an interval of exact ends gives a tight type -/
theorem tight_of {f : ITy → Itv CR → Itv CR → Out (Itv CR)} {g : Int → Int → Int} {R : ITy} {T U : Opd} {m M : Int}
    (e : resItv f R T U = .ret ⟨exactOr R.min R.max m, exactOr R.min R.max M⟩) (h1 : Least g T U m)
    (h2 : Greatest g T U M) : ∃ S, resTy f R T U = .ret S ∧ TightFor R g T U S := by
  refine ⟨Opd.range R (if R.In m then m else R.min) (if R.In M then M else R.max), ?_, rfl, rfl, m, M, h1, h2, rfl, rfl⟩
  unfold resTy
  rw [e]
  show Out.ret _ = _
  unfold retItv
  rw [endOr_lo, endOr_hi]

omit [Arch] in
theorem Opd.Wf.has_lo {T : Opd} [Arch] (h : T.Wf) : T.Has T.lo := ⟨Int.le_refl _, h.2.2.2.1⟩
omit [Arch] in
theorem Opd.Wf.has_hi {T : Opd} [Arch] (h : T.Wf) : T.Has T.hi := ⟨h.2.2.2.1, Int.le_refl _⟩

/-- the interval of exact results of an operator on operands whose ends `R` represents, computed at the corners -/
theorem corner_tight {R : ITy} {op : CR → CR → Out CR} {g : Int → Int → Int} {T U : Opd} (hT : T.Wf) (hU : U.Wf)
    (e : ∀ a b, (a = T.lo ∨ a = T.hi) → (b = U.lo ∨ b = U.hi) →
      op (castTo R a) (castTo R b) = .ret (exactOr R.min R.max (g a b)))
    (lo : ∀ t u L, T.Has t → U.Has u → L ≤ g T.lo U.lo → L ≤ g T.lo U.hi → L ≤ g T.hi U.lo → L ≤ g T.hi U.hi → L ≤ g t u)
    (hi : ∀ t u L, T.Has t → U.Has u → g T.lo U.lo ≤ L → g T.lo U.hi ≤ L → g T.hi U.lo ≤ L → g T.hi U.hi ≤ L → g t u ≤ L) :
    ∃ m M, corners R op ⟨castTo R T.lo, castTo R T.hi⟩ ⟨castTo R U.lo, castTo R U.hi⟩ =
      .ret ⟨exactOr R.min R.max m, exactOr R.min R.max M⟩ ∧ Least g T U m ∧ Greatest g T U M := by
  obtain ⟨m, M, e, ⟨h1, h2, h3, h4, h5⟩, k1, k2, k3, k4, k5⟩ := corners_exact (op := op)
    (e T.lo U.lo (Or.inl rfl) (Or.inl rfl)) (e T.lo U.hi (Or.inl rfl) (Or.inr rfl))
    (e T.hi U.lo (Or.inr rfl) (Or.inl rfl)) (e T.hi U.hi (Or.inr rfl) (Or.inr rfl))
  have at' : ∀ v, v = g T.lo U.lo ∨ v = g T.lo U.hi ∨ v = g T.hi U.lo ∨ v = g T.hi U.hi →
      ∃ t u, T.Has t ∧ U.Has u ∧ g t u = v := fun v h => by
    rcases h with h | h | h | h
    · exact ⟨_, _, hT.has_lo, hU.has_lo, h.symm⟩
    · exact ⟨_, _, hT.has_lo, hU.has_hi, h.symm⟩
    · exact ⟨_, _, hT.has_hi, hU.has_lo, h.symm⟩
    · exact ⟨_, _, hT.has_hi, hU.has_hi, h.symm⟩
  exact ⟨m, M, e, ⟨at' m h1, fun t u ht hu => lo t u m ht hu h2 h3 h4 h5⟩,
    ⟨at' M k1, fun t u ht hu => hi t u M ht hu k2 k3 k4 k5⟩⟩

omit [Arch] in
private theorem in_pair {R : ITy} {a l h : Int} (h1 : R.In l) (h2 : R.In h) (ha : a = l ∨ a = h) : R.In a := by
  rcases ha with rfl | rfl <;> assumption

/-- the interval of `+` -/
theorem add_tight {R : ITy} {T U : Opd} (hT : T.Wf) (hU : U.Wf) (i1 : R.In T.lo) (i2 : R.In T.hi) (i3 : R.In U.lo)
    (i4 : R.In U.hi) : ∃ m M, resItv itvAdd R T U = .ret ⟨exactOr R.min R.max m, exactOr R.min R.max M⟩ ∧
      Least (· + ·) T U m ∧ Greatest (· + ·) T U M := by
  refine ⟨T.lo + U.lo, T.hi + U.hi, resItv_of hT hU ?_, ⟨⟨_, _, hT.has_lo, hU.has_lo, rfl⟩, fun t u ht hu => ?_⟩,
    ⟨⟨_, _, hT.has_hi, hU.has_hi, rfl⟩, fun t u ht hu => ?_⟩⟩
  · unfold itvAdd
    rw [castTo_of_in i1, castTo_of_in i2, castTo_of_in i3, castTo_of_in i4, crAdd_ok i1 i3, crAdd_ok i2 i4]; rfl
  · have := ht.1; have := hu.1; dsimp only; omega
  · have := ht.2; have := hu.2; dsimp only; omega

/-- the interval of `-` -/
theorem sub_tight {R : ITy} {T U : Opd} (hT : T.Wf) (hU : U.Wf) (i1 : R.In T.lo) (i2 : R.In T.hi) (i3 : R.In U.lo)
    (i4 : R.In U.hi) : ∃ m M, resItv itvSub R T U = .ret ⟨exactOr R.min R.max m, exactOr R.min R.max M⟩ ∧
      Least (· - ·) T U m ∧ Greatest (· - ·) T U M := by
  refine ⟨T.lo - U.hi, T.hi - U.lo, resItv_of hT hU ?_, ⟨⟨_, _, hT.has_lo, hU.has_hi, rfl⟩, fun t u ht hu => ?_⟩,
    ⟨⟨_, _, hT.has_hi, hU.has_lo, rfl⟩, fun t u ht hu => ?_⟩⟩
  · unfold itvSub
    rw [castTo_of_in i1, castTo_of_in i2, castTo_of_in i3, castTo_of_in i4, crSub_ok i1 i4, crSub_ok i2 i3]; rfl
  · have := ht.1; have := hu.2; dsimp only; omega
  · have := ht.2; have := hu.1; dsimp only; omega

/-- the interval of `*` -/
theorem mul_tight {R : ITy} (hR : R.Ok) {T U : Opd} (hT : T.Wf) (hU : U.Wf) (i1 : R.In T.lo) (i2 : R.In T.hi)
    (i3 : R.In U.lo) (i4 : R.In U.hi) :
    ∃ m M, resItv itvMul R T U = .ret ⟨exactOr R.min R.max m, exactOr R.min R.max M⟩ ∧
      Least (· * ·) T U m ∧ Greatest (· * ·) T U M := by
  obtain ⟨m, M, e, h⟩ := corner_tight (R := R) (op := crMul R) (g := (· * ·)) hT hU
    (fun a b ha hb => by
      have ia := in_pair i1 i2 ha; have ib := in_pair i3 i4 hb
      rw [castTo_of_in ia, castTo_of_in ib]; exact crMul_ok hR ia ib)
    (fun t u L ht hu => corner_lower ht.1 ht.2 hu.1 hu.2)
    (fun t u L ht hu => corner_upper ht.1 ht.2 hu.1 hu.2)
  exact ⟨m, M, resItv_of hT hU e, h⟩

private theorem quot_exact {R : ITy} {t u : Int} (ht : R.In t) (hu : R.In u) (h0 : u ≠ 0) :
    (if R.max < t.tdiv u then CR.err .positive_overflow_error else .ok (t.tdiv u)) = exactOr R.min R.max (t.tdiv u) := by
  obtain ⟨e, he, hp, _, _, _, h⟩ := crDiv_key ht hu h0
  unfold exactOr
  split_ifs with h1 h2
  · rfl
  · rw [h h1] at hp
    have := hp.1; omega
  · rfl

/-- the interval of `/` for divisors other than zero -/
theorem div_tight {R : ITy} {T U : Opd} (hT : T.Wf) (hU : U.Wf) (i1 : R.In T.lo) (i2 : R.In T.hi)
    (i3 : R.In U.lo) (i4 : R.In U.hi) (h0 : U.hi < 0 ∨ 0 < U.lo) :
    ∃ m M, resItv divItv R T U = .ret ⟨exactOr R.min R.max m, exactOr R.min R.max M⟩ ∧
      Least Int.tdiv T U m ∧ Greatest Int.tdiv T U M := by
  have hle := hU.2.2.2.1
  obtain ⟨m, M, e, h⟩ := corner_tight (R := R) (op := crDiv R) (g := Int.tdiv) hT hU
    (fun a b ha hb => by
      have ia := in_pair i1 i2 ha; have ib := in_pair i3 i4 hb
      have h0 : b ≠ 0 := by omega
      rw [castTo_of_in ia, castTo_of_in ib, crDiv_ok ia ib h0, quot_exact ia ib h0])
    (fun t u L ht hu g1 g2 g3 g4 => by
      rcases h0 with h0 | h0
      · exact tdiv_lo_neg h0 ht.2 hu.2 g4 (Or.inr ⟨_, hu.1, g3⟩)
      · exact tdiv_lo_pos h0 ht.1 hu.1 g1 (Or.inr ⟨_, hu.2, g2⟩))
    (fun t u L ht hu g1 g2 g3 g4 => by
      rcases h0 with h0 | h0
      · exact tdiv_hi_neg h0 ht.1 hu.2 g2 (Or.inr ⟨_, hu.1, g1⟩)
      · exact tdiv_hi_pos h0 ht.2 hu.1 g3 (Or.inr ⟨_, hu.2, g4⟩))
  refine ⟨m, M, resItv_of hT hU ?_, h⟩
  obtain ⟨q1, _⟩ := then_of i3 i4 h0
  unfold divItv divModItv
  change (if thenCond R _ = true then _ else _) = _
  rw [if_pos q1]
  change (do assertThat _; corners R (crDiv R) _ _) = _
  rw [excludes_of_then q1, e]; rfl

omit [Arch] in
private theorem scale_nonneg' {a b : Int} (ha : 0 ≤ a) : 0 ≤ scale a b := by
  unfold scale; split_ifs
  · exact Int.mul_nonneg ha (Int.le_of_lt (two_pow_pos _))
  · exact Int.tdiv_nonneg ha (Int.le_of_lt (two_pow_pos _))

omit [Arch] in
private theorem exactOr_in {R : ITy} {x : Int} (h : R.In x) : exactOr R.min R.max x = .ok x := by
  have := h.1; have := h.2
  unfold exactOr
  rw [if_neg (by omega), if_neg (by omega)]

/-- the interval of `<<` on values and counts that are not negative -/
theorem shl_tight {R : ITy} (hR : R.Ok) {T U : Opd} (hT : T.Wf) (hU : U.Wf) (i2 : R.In T.hi) (h1 : 0 ≤ T.lo)
    (h2 : 0 ≤ U.lo) : ∃ m M, resItv itvShl R T U = .ret ⟨exactOr R.min R.max m, exactOr R.min R.max M⟩ ∧
      Least scale T U m ∧ Greatest scale T U M := by
  have hz := R.min_nonpos; have hle := hT.2.2.2.1; have hleU := hU.2.2.2.1
  have i1 : R.In T.lo := ⟨by omega, by have := i2.2; omega⟩
  obtain ⟨m, M, e, h⟩ := corner_tight (R := R) (op := crShl R) (g := scale) hT hU
    (fun a b ha hb => by
      have h3 := scale_nonneg' (a := a) (b := b) (by omega)
      rw [crShl_in hR (in_pair i1 i2 ha), if_neg (by omega)]
      unfold exactOr
      split_ifs <;> first | rfl | omega)
    (fun t u L ht hu g1 g2 g3 g4 => by have := scale_mono h1 ht.1 hu.1; omega)
    (fun t u L ht hu g1 g2 g3 g4 => by
      have := scale_mono (a := t) (b := u) (t := T.hi) (u := U.hi) (by have := ht.1; omega) ht.2 hu.2; omega)
  exact ⟨m, M, resItv_of hT hU e, h⟩

/-- the interval of `>>` on values and counts that are not negative -/
theorem shr_tight {R : ITy} (hR : R.Ok) {T : Opd} {c d : Int} (hT : T.Wf) (hcd : c ≤ d) (i2 : R.In T.hi) (h1 : 0 ≤ T.lo)
    (h2 : 0 ≤ c) (hb : ∀ a b, (a = T.lo ∨ a = T.hi) → (b = c ∨ b = d) → ¬ ShrBad R a b) :
    itvShr R ⟨castTo R T.lo, castTo R T.hi⟩ ⟨castTo R c, castTo R d⟩ =
      .ret ⟨exactOr R.min R.max (scale T.lo (-d)), exactOr R.min R.max (scale T.hi (-c))⟩ := by
  have hz := R.min_nonpos; have hle := hT.2.2.2.1
  have i1 : R.In T.lo := ⟨by omega, by have := i2.2; omega⟩
  have key : ∀ a b, (a = T.lo ∨ a = T.hi) → (b = c ∨ b = d) →
      crShr R (castTo R a) (castTo R b) = .ret (exactOr R.min R.max (scale a (-b))) := fun a b ha hb' => by
    have ia := in_pair i1 i2 ha
    obtain ⟨r, e, p, h⟩ := crShr_val hR a b (hb a b ha hb')
    rw [e]
    rcases h with ⟨rfl, _⟩ | ⟨_, _, _, h⟩ | ⟨_, _, h⟩ | ⟨_, _, h⟩
    · rw [exactOr_in p]
    · have := h ia; omega
    · have := h ia; omega
    · rcases h with h | h
      · omega
      · exact absurd ia h.2
  obtain ⟨m, M, e, hm, hM⟩ := corners_exact (R := R) (op := crShr R) (key T.lo c (Or.inl rfl) (Or.inl rfl))
    (key T.lo d (Or.inl rfl) (Or.inr rfl)) (key T.hi c (Or.inr rfl) (Or.inl rfl)) (key T.hi d (Or.inr rfl) (Or.inr rfl))
  have a1 := scale_mono (a := T.lo) (t := T.lo) (b := -d) (u := -c) h1 (Int.le_refl _) (by omega)
  have a2 := scale_mono (a := T.lo) (t := T.hi) (b := -d) (u := -d) h1 hle (by omega)
  have a3 := scale_mono (a := T.lo) (t := T.hi) (b := -c) (u := -c) h1 hle (by omega)
  have a4 := scale_mono (a := T.hi) (t := T.hi) (b := -d) (u := -c) (by omega) (Int.le_refl _) (by omega)
  have e1 : m = scale T.lo (-d) := by omega
  have e2 : M = scale T.hi (-c) := by omega
  rw [← e1, ← e2]; exact e

omit [Arch] in
theorem Least.congr {f g : Int → Int → Int} {T U : Opd} {m : Int} (h : ∀ t u, T.Has t → U.Has u → f t u = g t u)
    (hm : Least f T U m) : Least g T U m := by
  obtain ⟨⟨t, u, ht, hu, e⟩, h2⟩ := hm
  exact ⟨⟨t, u, ht, hu, by rw [← h t u ht hu]; exact e⟩, fun t u ht hu => by rw [← h t u ht hu]; exact h2 t u ht hu⟩

omit [Arch] in
theorem Greatest.congr {f g : Int → Int → Int} {T U : Opd} {m : Int} (h : ∀ t u, T.Has t → U.Has u → f t u = g t u)
    (hm : Greatest f T U m) : Greatest g T U m := by
  obtain ⟨⟨t, u, ht, hu, e⟩, h2⟩ := hm
  exact ⟨⟨t, u, ht, hu, by rw [← h t u ht hu]; exact e⟩, fun t u ht hu => by rw [← h t u ht hu]; exact h2 t u ht hu⟩

/-- automatic promotion takes the smallest type when the widest type represents the least and the greatest result -/
theorem smallest_of {g : Int → Int → Int} {B : ITy} (hB : B = tIntMax ∨ B = tUIntMax) {T U : Opd} {m M : Int}
    (h1 : Least g T U m) (h2 : Greatest g T U M) (hall : ∀ t u, T.Has t → U.Has u → B.In (g t u)) :
    ∃ R, autoEnds B ⟨exactOr B.min B.max m, exactOr B.min B.max M⟩ = .ret R ∧ R.Ok ∧ R.signed = B.signed ∧
      SmallestFor R g T U := by
  obtain ⟨⟨t1, u1, ht1, hu1, rfl⟩, h1⟩ := h1
  obtain ⟨⟨t2, u2, ht2, hu2, rfl⟩, h2⟩ := h2
  have b1 := hall t1 u1 ht1 hu1
  have b2 := hall t2 u2 ht2 hu2
  obtain ⟨R, e, hs, ok, hi, hm⟩ := autoStored_spec hB b1 b2
  refine ⟨R, ?_, ok, hs, fun t u ht hu => hi _ (h1 t u ht hu) (h2 t u ht hu), fun S sS hS => ?_⟩
  · unfold autoEnds
    dsimp only
    rw [endOr_lo, endOr_hi, if_pos b1, if_pos b2]; exact e
  · exact hm S (sS.trans hs) (hS _ _ ht1 hu1) (hS _ _ ht2 hu2)

end
end Verif
