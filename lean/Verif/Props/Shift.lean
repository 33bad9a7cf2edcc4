import Verif.SafeSpec
import Verif.Proofs.Shift2

/-!
Properties C26 (shifts of safe types) and C49 (their result types).
-/

namespace Verif.Props
open Spec
section
variable [Arch]

theorem shlIn_ret {R : ITy} {t u v : Int} (h : shlIn R t u = .ret v) :
    v = t * 2 ^ u.toNat ∧ 0 ≤ u ∧ R.In t ∧ R.In u ∧ R.In v ∧ (t < 0 → u = 0) := by
  have hz := R.min_nonpos
  unfold shlIn at h
  rcases ct : castTo R t with a | e
  · obtain ⟨rfl, it⟩ := castTo_ok ct
    rcases cu : castTo R u with b | e
    · obtain ⟨rfl, iu⟩ := castTo_ok cu
      rw [ct, cu] at h
      simp only [orThrow, Out.ret_bind] at h
      split_ifs at h with h1 h2 h3 h4 h5
      · cases h; subst h1
        refine ⟨by simp, by omega, it, iu, it, fun _ => rfl⟩
      · cases h
        have := mul_pow_ge (a := a) (b := b) (by omega)
        exact ⟨rfl, by omega, it, iu, ⟨by omega, by omega⟩, by omega⟩
    · rw [ct, cu] at h; cases h
  · rw [ct] at h; cases h

theorem shlIn_cases (R : ITy) (t u : Int) : (∃ v, shlIn R t u = .ret v) ∨ ∃ e, shlIn R t u = .thrown e := by
  unfold shlIn
  rcases ct : castTo R t with a | e
  · rcases cu : castTo R u with b | e
    · simp only [orThrow, Out.ret_bind]
      split_ifs <;> simp
    · exact Or.inr ⟨e, rfl⟩
  · exact Or.inr ⟨e, rfl⟩

theorem shrIn_ret {R : ITy} {t u v : Int} (h : shrIn R t u = .ret v) :
    v = t / 2 ^ u.toNat ∧ 0 ≤ u ∧ 0 ≤ t ∧ R.In t ∧ R.In u ∧ R.In v := by
  have hz := R.min_nonpos
  unfold shrIn at h
  rcases ct : castTo R t with a | e
  · obtain ⟨rfl, it⟩ := castTo_ok ct
    rcases cu : castTo R u with b | e
    · obtain ⟨rfl, iu⟩ := castTo_ok cu
      rw [ct, cu] at h
      simp only [orThrow, Out.ret_bind] at h
      split_ifs at h with h1 h2 h3 h4
      cases h
      have := it.2
      have g1 : a / 2 ^ b.toNat ≤ a := Int.ediv_le_self _ (by omega)
      have g2 : 0 ≤ a / 2 ^ b.toNat := Int.ediv_nonneg (by omega) (Int.le_of_lt (two_pow_pos _))
      exact ⟨rfl, by omega, by omega, it, iu, ⟨by omega, by omega⟩⟩
    · rw [ct, cu] at h; cases h
  · rw [ct] at h; cases h

theorem shrIn_cases (R : ITy) (t u : Int) (h : ¬ FullWidth R u) :
    (∃ v, shrIn R t u = .ret v) ∨ ∃ e, shrIn R t u = .thrown e := by
  unfold shrIn
  rcases ct : castTo R t with a | e
  · rcases cu : castTo R u with b | e
    · simp only [orThrow, Out.ret_bind]
      obtain ⟨rfl, _⟩ := castTo_ok cu
      split_ifs with h1 h2 h3 h4
      · simp
      · simp
      · simp
      · exact absurd h4 h
      · simp
    · exact Or.inr ⟨e, rfl⟩
  · exact Or.inr ⟨e, rfl⟩

/-- `<<` for covered operand types when no exception is possible -/
theorem shl_static {R : ITy} (hR : R.Ok) {p : EP} {T U : Opd} (hT : T.Wf)
    (hU : U.Wf) (hc : ShlCovered R T U) (hx : ¬ staticExc opShl R T U = true) {t u : Int} (ht : T.Has t) (hu : U.Has u) :
    runOp opShl p R T U t u = .ret (t * 2 ^ u.toNat) ∧ 0 ≤ t ∧ 0 ≤ u ∧ R.In t ∧ R.In u ∧ R.In (t * 2 ^ u.toNat) := by
  obtain ⟨ri, e, p1, p2, h1, _⟩ := shl_res hR hT hU
  rw [runOp_cases (op := opShl) e, if_neg hx]
  have h' : excPossible R ri = false := by
    unfold staticExc at hx; rw [show resItv opShl.itv R T U = .ret ri from e] at hx; simpa using hx
  obtain ⟨_, ⟨w, hw, iw⟩⟩ := excPossible_false h' p1 p2
  have t1 := ht.1; have t2 := ht.2; have u1 := hu.1; have u2 := hu.2
  obtain ⟨h0, hc⟩ := hc
  have hz := R.min_nonpos
  have hU0 : 0 ≤ U.hi := by rcases hc with h | h <;> omega
  have hle := h1 h0 hU0 w hw
  rcases hc with ⟨c1, c2⟩ | ⟨_, c⟩
  · have m := mul_pow_mono (a := t) (b := u) (t := T.hi) (u := U.hi) (by omega) t2 u2
    have g1 := mul_pow_ge (a := T.hi) (b := U.hi) (by omega)
    have g2 := mul_pow_ge (a := t) (b := u) (by omega)
    have g3 : (2 : Int) ^ u.toNat ≤ R.max := by
      have := mul_pow_mono (a := 1) (b := u) (t := T.hi) (u := U.hi) (by omega) (by omega) u2
      omega
    have g4 := lt_two_pow_toNat (k := u) (by omega)
    have hb : u < R.bits := by
      have g5 : R.max < 2 ^ R.bits := by
        have := two_pow_le (digits_le_bits R)
        unfold ITy.max; omega
      have g6 : (2 : Int) ^ u.toNat < 2 ^ R.bits := by omega
      have g6 : 2 ^ u.toNat < 2 ^ R.bits := by exact_mod_cast g6
      have := (Nat.pow_lt_pow_iff_right (by decide : 1 < 2)).1 g6
      omega
    have it : R.In t := ⟨by omega, by omega⟩
    have iu : R.In u := ⟨by omega, by omega⟩
    have ix : R.In (t * 2 ^ u.toNat) := ⟨by omega, by omega⟩
    exact ⟨plainShl it iu (by omega) (by omega) hb ix, by omega, by omega, it, iu, ix⟩
  · omega

/-- the closed form of `<<` for covered operand types -/
theorem shl_eq {R : ITy} (hR : R.Ok) {p : EP} (hp : p.ae = .throw) (hi : p.idb = .throw) {T U : Opd} (hT : T.Wf)
    (hU : U.Wf) (hc : ShlCovered R T U) {t u : Int} (ht : T.Has t) (hu : U.Has u) :
    (runOp opShl p R T U t u = if LitsOk R T U then shlIn R t u else .fault .illFormed) ∨
    (runOp opShl p R T U t u = .ret (t * 2 ^ u.toNat) ∧ 0 ≤ t ∧ 0 ≤ u ∧ R.In t ∧ R.In u ∧ R.In (t * 2 ^ u.toNat)) := by
  obtain ⟨ri, e, p1, p2, h1, _⟩ := shl_res hR hT hU
  by_cases hx : staticExc opShl R T U = true
  · rw [runOp_cases (op := opShl) e, if_pos hx]
    exact Or.inl (checkedShl_throw hR hp hi hT ht hU hu)
  · exact Or.inr (shl_static hR hT hU hc hx ht hu)

/-- `>>` for covered operand types when no exception is possible -/
theorem shr_static {R : ITy} (hR : R.Ok) {T U : Opd} (hT : T.Wf) (hU : U.Wf) (hc : ShrCovered R T U) {ri : Itv CR}
    (e : resItv itvShr R T U = .ret ri)
    (hx : ¬ shrExcPossible R ⟨castTo R T.lo, castTo R T.hi⟩ ⟨castTo R U.lo, castTo R U.hi⟩ ri = true)
    {t u : Int} (ht : T.Has t) (hu : U.Has u) (hf : ¬ FullWidth R u) :
    runPlain opShr R t u = .ret (t / 2 ^ u.toNat) ∧ 0 ≤ t ∧ 0 ≤ u ∧ R.In t ∧ R.In u ∧ R.In (t / 2 ^ u.toNat) := by
  have hz := R.min_nonpos
  rcases shr_res hR hT hU with e' | ⟨ri', e', p1, p2, _, h2⟩
  · rw [e] at e'; cases e'
  rw [e] at e'
  obtain rfl := Out.ret.inj e'
  obtain ⟨i1, i2, i3, i4⟩ := h2 (by simpa using hx) hc
  have t1 := ht.1; have t2 := ht.2; have u1 := hu.1; have u2 := hu.2
  have j := i1.2
  have hd := (in_digits R).2
  have it : R.In t := ⟨by omega, by omega⟩
  have iu : R.In u := ⟨by omega, by omega⟩
  have g1 : t / 2 ^ u.toNat ≤ t := Int.ediv_le_self _ (by omega)
  have g2 : 0 ≤ t / 2 ^ u.toNat := Int.ediv_nonneg (by omega) (Int.le_of_lt (two_pow_pos _))
  refine ⟨plainShr it iu (by omega) (by omega) ?_, by omega, by omega, it, iu, Int.le_trans hz g2, Int.le_trans g1 it.2⟩
  have hpb := promote_bits_ge R
  rcases hs : R.signed with _ | _
  · have hdb := ITy.digits_unsigned hs
    by_cases hl : Arch.intLg ≤ R.lg
    · have : u ≠ R.bits := fun h => hf ⟨hs, hl, h⟩
      omega
    · have : R.bits < (promote R).bits := by
        unfold promote; rw [if_pos (by omega)]
        exact Nat.mul_lt_mul_of_pos_left (Nat.pow_lt_pow_right (by decide) (Nat.lt_of_not_le hl)) (by decide)
      omega
  · have hdb := ITy.digits_signed hs
    omega

/-- the closed form of `>>` for covered operand types -/
theorem shr_eq {R : ITy} (hR : R.Ok) {p : EP} (hp : p.ae = .throw) (hi : p.idb = .throw) {T U : Opd} (hT : T.Wf)
    (hU : U.Wf) (hc : ShrCovered R T U) {t u : Int} (ht : T.Has t) (hu : U.Has u) (hf : ¬ FullWidth R u) :
    (runShr p R T U t u = .fault .illFormed) ∨
    (runShr p R T U t u = if LitsOk R T U then shrIn R t u else .fault .illFormed) ∨
    (runShr p R T U t u = .ret (t / 2 ^ u.toNat) ∧ 0 ≤ t ∧ 0 ≤ u ∧ R.In t ∧ R.In u ∧ R.In (t / 2 ^ u.toNat)) := by
  unfold runShr
  rcases shr_res hR hT hU with e | ⟨ri, e, p1, p2, _, h2⟩
  · rw [e]; exact Or.inl rfl
  right
  rw [e, castItv_eq hT, castItv_eq hU]
  simp only [Out.ret_bind]
  split
  · exact Or.inl (checkedShr_throw hR hp hi hT ht hU hu)
  · rename_i hx
    exact Or.inr (shr_static hR hT hU hc e hx ht hu hf)

/-! ### C26 -/

/-- C26 for `<<` on covered operand types, any promotion policy: the exact value (and then the count is not negative), an
exception, or a program that does not compile. -/
theorem C26_shl_partial (pp : PP) (hpp : pp.Wf) (p : EP) (hp : p.ae = .throw) (hi : p.idb = .throw) (T U : Opd) (hT : T.Wf)
    (hU : U.Wf) (hc : ∀ R, pp.result .shl T U = .ret R → ShlCovered R T U) (t u : Int) (ht : T.Has t) (hu : U.Has u) :
    ExactOrThrows (shl pp p T U t u) (t * 2 ^ u.toNat) ∧
    (u < 0 → (∃ e, shl pp p T U t u = .thrown e) ∨ shl pp p T U t u = .fault .illFormed) := by
  unfold shl ExactOrThrows
  rcases PP.result_shift hpp (Or.inl rfl) hT hU with ⟨R, e, hR⟩ | e <;> rw [e]
  · simp only [Out.ret_bind]
    rcases shl_eq hR hp hi hT hU (hc R e) ht hu with g | ⟨g, _, g0, _⟩
    · rw [g]
      split
      · rcases shlIn_cases R t u with ⟨v, h⟩ | ⟨e, h⟩
        · obtain ⟨rfl, h0, _⟩ := shlIn_ret h
          exact ⟨Or.inl h, fun hn => by omega⟩
        · exact ⟨Or.inr (Or.inl ⟨e, h⟩), fun _ => Or.inl ⟨e, h⟩⟩
      · exact ⟨Or.inr (Or.inr rfl), fun _ => Or.inr rfl⟩
    · exact ⟨Or.inl g, fun hn => by omega⟩
  · exact ⟨Or.inr (Or.inr rfl), fun _ => Or.inr rfl⟩

/-- `<<` returns whenever the operands and the result are values of the result base type, the count is not negative, and the
left operand is positive, or zero (with a count below the number of digits), or the count is zero. -/
theorem C26_shl_returns (pp : PP) (hpp : pp.Wf) (p : EP) (hp : p.ae = .throw) (hi : p.idb = .throw) (T U : Opd) (hT : T.Wf)
    (hU : U.Wf) (R : ITy) (hres : pp.result .shl T U = .ret R) (hc : ShlCovered R T U) (t u : Int) (ht : T.Has t)
    (hu : U.Has u) (it : R.In t) (iu : R.In u) (t0 : u = 0 ∨ 0 < t ∨ (t = 0 ∧ u < R.digits)) (u0 : 0 ≤ u)
    (ix : R.In (t * 2 ^ u.toNat)) :
    shl pp p T U t u = .ret (t * 2 ^ u.toNat) := by
  have hR : R.Ok := by
    rcases PP.result_shift hpp (Or.inl rfl) hT hU with ⟨R', e, hR⟩ | e <;> rw [hres] at e <;> cases e
    exact hR
  unfold shl
  rw [hres]; simp only [Out.ret_bind]
  rcases shl_eq hR hp hi hT hU hc ht hu with g | ⟨g, _⟩
  · rw [g, if_pos (litsOk_value hT hU ht hu it iu)]
    unfold shlIn
    rw [castTo_of_in it, castTo_of_in iu]
    simp only [orThrow, Out.ret_bind]
    split_ifs with h1 h2 h3 h4 h5
    · subst h1; simp
    · omega
    · exfalso
      have t0 : 0 < t := by omega
      have h6 := two_pow_le (show R.digits ≤ u.toNat by omega)
      have h7 := mul_pow_mono (a := 1) (b := u) (t := t) (u := u) (by omega) (by omega) (Int.le_refl _)
      have h8 := ix.2
      unfold ITy.max at h8; omega
    · omega
    · exfalso; have := ix.2; omega
    · rfl
  · exact g

/-- C26 for `>>` on covered operand types except for the shift by the full width of an unsigned type: the exact value (and
then both operands are non-negative), an exception, or a program that does not compile. -/
theorem C26_shr_partial (pp : PP) (hpp : pp.Wf) (p : EP) (hp : p.ae = .throw) (hi : p.idb = .throw) (T U : Opd) (hT : T.Wf)
    (hU : U.Wf) (t u : Int) (hc : ∀ R, pp.result .shr T U = .ret R → ShrCovered R T U ∧ ¬ FullWidth R u) (ht : T.Has t)
    (hu : U.Has u) :
    ExactOrThrows (shr pp p T U t u) (t / 2 ^ u.toNat) ∧
    (u < 0 ∨ t < 0 → (∃ e, shr pp p T U t u = .thrown e) ∨ shr pp p T U t u = .fault .illFormed) := by
  unfold shr ExactOrThrows
  rcases PP.result_shift hpp (Or.inr rfl) hT hU with ⟨R, e, hR⟩ | e <;> rw [e]
  · simp only [Out.ret_bind]
    obtain ⟨hc1, hf⟩ := hc R e
    rcases shr_eq hR hp hi hT hU hc1 ht hu hf with g | g | ⟨g, g1, g0, _⟩
    · rw [g]; exact ⟨Or.inr (Or.inr rfl), fun _ => Or.inr rfl⟩
    · rw [g]
      split
      · rcases shrIn_cases R t u hf with ⟨v, h⟩ | ⟨e, h⟩
        · obtain ⟨rfl, h0, h1, _⟩ := shrIn_ret h
          exact ⟨Or.inl h, fun hn => by omega⟩
        · exact ⟨Or.inr (Or.inl ⟨e, h⟩), fun _ => Or.inl ⟨e, h⟩⟩
      · exact ⟨Or.inr (Or.inr rfl), fun _ => Or.inr rfl⟩
    · exact ⟨Or.inl g, fun hn => by omega⟩
  · exact ⟨Or.inr (Or.inr rfl), fun _ => Or.inr rfl⟩

/-- `>>` returns (if the program compiles) whenever the operands are non-negative values of the result base type and the
count is at most its number of digits (but not the full width of an unsigned type). -/
theorem C26_shr_returns (pp : PP) (hpp : pp.Wf) (p : EP) (hp : p.ae = .throw) (hi : p.idb = .throw) (T U : Opd) (hT : T.Wf)
    (hU : U.Wf) (R : ITy) (hres : pp.result .shr T U = .ret R) (hc : ShrCovered R T U) (t u : Int) (ht : T.Has t)
    (hu : U.Has u) (it : R.In t) (t0 : 0 ≤ t) (u0 : 0 ≤ u) (hdb : u ≤ R.digits) (hf : ¬ FullWidth R u) :
    shr pp p T U t u = .ret (t / 2 ^ u.toNat) ∨ shr pp p T U t u = .fault .illFormed := by
  have hR : R.Ok := by
    rcases PP.result_shift hpp (Or.inr rfl) hT hU with ⟨R', e, hR⟩ | e <;> rw [hres] at e <;> cases e
    exact hR
  have hd := (in_digits R).2
  have iu : R.In u := ⟨by have := R.min_nonpos; omega, by omega⟩
  unfold shr
  rw [hres]; simp only [Out.ret_bind]
  rcases shr_eq hR hp hi hT hU hc ht hu hf with g | g | ⟨g, _⟩
  · exact Or.inr g
  · left
    rw [g, if_pos (litsOk_value hT hU ht hu it iu)]
    unfold shrIn
    rw [castTo_of_in it, castTo_of_in iu]
    simp only [orThrow, Out.ret_bind]
    rw [if_neg (by omega), if_neg (by omega), if_neg (by omega), if_neg (show ¬ (R.signed = false ∧ Arch.intLg ≤ R.lg ∧ u = R.bits) from hf)]
  · exact Or.inl g

/-- Under native promotion, `safe<B>` with `B` at least as wide as `int`, shifted left by any operand whose range contains
a positive count, is covered. -/
theorem C26_shl_native (p : EP) (hp : p.ae = .throw) (hi : p.idb = .throw) (B : ITy) (hB : B.Ok) (hl : Arch.intLg ≤ B.lg)
    (U : Opd) (hU : U.Wf) (hU1 : 1 ≤ U.hi) (t u : Int) (ht : B.In t) (hu : U.Has u) :
    ExactOrThrows (shl .native p (Opd.ofSafe B) U t u) (t * 2 ^ u.toNat) := by
  have hm := B.max_ge; have hz := B.min_nonpos
  have hT : (Opd.ofSafe B).Wf := by
    refine ⟨hB, B.in_min, B.in_max, ?_, ?_, ?_⟩
    · show B.min ≤ B.max; omega
    · intro h; cases h
    · intro b h; cases h
  refine (C26_shl_partial .native trivial p hp hi _ U hT hU ?_ t u ht hu).1
  intro R hres
  have hres : Out.ret (promote B) = .ret R := hres
  have : R = B := by cases hres; unfold promote; rw [if_neg (by omega)]
  subst this
  refine ⟨by show 0 < R.max; omega, Or.inr ⟨by omega, ?_⟩⟩
  show R.max < R.max * _
  have := mul_pow_mono (a := R.max) (b := 1) (t := R.max) (u := U.hi) (by omega) (by omega) hU1
  simp at this; omega

/-! ### C49 -/

/-- The result of `<<` is in the range of its type. -/
theorem C49_shl_bounds (pp : PP) (hpp : pp.Wf) (p : EP) (hp : p.ae = .throw) (hi : p.idb = .throw) (T U : Opd) (hT : T.Wf)
    (hU : U.Wf) (hc : ∀ R, pp.result .shl T U = .ret R → ShlCovered R T U) (t u v : Int) (ht : T.Has t) (hu : U.Has u)
    (h : shl pp p T U t u = .ret v) : ∃ S, shlTy pp T U = .ret S ∧ S.Wf ∧ S.kind = .safe ∧ S.Has v := by
  unfold shl at h
  unfold shlTy
  rcases PP.result_shift hpp (Or.inl rfl) hT hU with ⟨R, e, hR⟩ | e <;> rw [e] at h ⊢
  · simp only [Out.ret_bind] at h ⊢
    have key : v = t * 2 ^ u.toNat ∧ 0 ≤ u ∧ R.In t ∧ R.In v ∧ (t < 0 → u = 0) := by
      rcases shl_eq hR hp hi hT hU (hc R e) ht hu with g | ⟨g, g1, g0, g2, g3, g4⟩
      · rw [g] at h
        split at h
        · obtain ⟨h1, h2, h3, _, h4, h5⟩ := shlIn_ret h
          exact ⟨h1, h2, h3, h4, h5⟩
        · cases h
      · rw [g] at h; cases h
        exact ⟨rfl, g0, g2, g4, fun _ => by omega⟩
    obtain ⟨rfl, k1, k2, k3, k4⟩ := key
    obtain ⟨ri, e', p1, p2, _, hh⟩ := shl_res hR hT hU
    obtain ⟨S, h1, h2, h3, _, h4⟩ := resTy_has hR e' p1 p2 (hh t u ht hu k2 k3 k1 k4) k3
    exact ⟨S, h1, h2, h3, h4⟩
  · cases h

/-- The result of `>>` is in the range of its type, for covered operand types. -/
theorem C49_shr_bounds_partial (pp : PP) (hpp : pp.Wf) (p : EP) (hp : p.ae = .throw) (hi : p.idb = .throw) (T U : Opd)
    (hT : T.Wf) (hU : U.Wf) (t u v : Int) (hc : ∀ R, pp.result .shr T U = .ret R → ShrCovered R T U ∧ ¬ FullWidth R u)
    (ht : T.Has t) (hu : U.Has u) (h : shr pp p T U t u = .ret v) :
    ∃ S, shrTy pp T U = .ret S ∧ S.Wf ∧ S.kind = .safe ∧ S.Has v := by
  unfold shr at h
  unfold shrTy
  rcases PP.result_shift hpp (Or.inr rfl) hT hU with ⟨R, e, hR⟩ | e <;> rw [e] at h ⊢
  · simp only [Out.ret_bind] at h ⊢
    obtain ⟨hc1, hf⟩ := hc R e
    have key : v = t / 2 ^ u.toNat ∧ 0 ≤ u ∧ 0 ≤ t ∧ R.In t ∧ R.In u ∧ R.In v := by
      rcases shr_eq hR hp hi hT hU hc1 ht hu hf with g | g | ⟨g, g1, g0, g2, g3, g4⟩
      · rw [g] at h; cases h
      · rw [g] at h
        split at h
        · exact shrIn_ret h
        · cases h
      · rw [g] at h; cases h
        exact ⟨rfl, g0, g1, g2, g3, g4⟩
    obtain ⟨rfl, k1, k2, k3, k4, k5⟩ := key
    rcases shr_res hR hT hU with e' | ⟨ri, e', p1, p2, hh, _⟩
    · unfold runShr at h; rw [e'] at h; cases h
    · obtain ⟨S, h1, h2, h3, _, h4⟩ := resTy_has hR e' p1 p2
        (hh t u ht hu k3 k4 k2 k1 (fun hL => hc1 ⟨hL.1, hL.2.1, hL.2.2.1⟩)) k5
      exact ⟨S, h1, h2, h3, h4⟩
  · cases h

/-- C26 for `<<` under a policy that need not throw for the errors of shifts (`loose_exception_policy` ignores them): if the
operands are free of these errors the value is exact or an (arithmetic) exception is thrown; if they are not, all bets are off
(`C26_loose_refuted`). -/
theorem C26_shl_loose_partial (pp : PP) (hpp : pp.Wf) (p : EP) (hp : p.ae = .throw) (hi : p.idb ≠ .trap) (T U : Opd)
    (hT : T.Wf) (hU : U.Wf) (t u : Int)
    (hc : ∀ R, pp.result .shl T U = .ret R → ShlCovered R T U ∧ ShlFree R t u) (ht : T.Has t) (hu : U.Has u) :
    ExactOrThrows (shl pp p T U t u) (t * 2 ^ u.toNat) := by
  rw [shl_free hpp hp hi hT hU ht hu fun R h => (hc R h).2]
  exact (C26_shl_partial pp hpp p.strictShift hp rfl T U hT hU (fun R h => (hc R h).1) t u ht hu).1

/-- C26 for `>>` under a policy that need not throw for the errors of shifts. -/
theorem C26_shr_loose_partial (pp : PP) (hpp : pp.Wf) (p : EP) (hp : p.ae = .throw) (hi : p.idb ≠ .trap) (T U : Opd)
    (hT : T.Wf) (hU : U.Wf) (t u : Int)
    (hc : ∀ R, pp.result .shr T U = .ret R → ShrCovered R T U ∧ ¬ FullWidth R u ∧ ShrFree R t u) (ht : T.Has t)
    (hu : U.Has u) :
    ExactOrThrows (shr pp p T U t u) (t / 2 ^ u.toNat) := by
  rw [shr_free hpp hp hi hT hU ht hu fun R h => (hc R h).2.2]
  exact (C26_shr_partial pp hpp p.strictShift hp rfl T U hT hU t u (fun R h => ⟨(hc R h).1, (hc R h).2.1⟩) ht hu).1

end

section
attribute [local instance] lp64

/-! examples of covered shifts -/

example : shl .native strictException (Opd.ofSafe i32) (Opd.ofBuiltin i32) 5 3 = .ret 40 ∧
    shl .native strictException (Opd.ofSafe i32) (Opd.ofBuiltin i32) 5 29 = .thrown .shift_too_large ∧
    shl .native strictException (Opd.ofSafe i32) (Opd.ofBuiltin i32) 5 (-1) = .thrown .negative_shift ∧
    shl .native strictException (Opd.ofSafe i32) (Opd.ofBuiltin i32) (-5) 0 = .ret (-5) ∧
    shlTy .native (Opd.ofSafe i32) (Opd.ofBuiltin i32) = .ret (Opd.ofSafe i32) := by decide +kernel

example : shl .automatic strictException (Opd.range i32 0 100) (Opd.range i32 0 10) 100 10 = .ret 102400 ∧
    shlTy .automatic (Opd.range i32 0 100) (Opd.range i32 0 10) = .ret (Opd.range i32 0 102400) ∧
    ShlCovered i32 (Opd.range i32 0 100) (Opd.range i32 0 10) := by decide +kernel

example : shr .native strictException (Opd.ofSafe i32) (Opd.ofBuiltin i32) 100 3 = .ret 12 ∧
    shr .native strictException (Opd.ofSafe i32) (Opd.ofBuiltin i32) 100 32 = .thrown .shift_too_large ∧
    shr .native strictException (Opd.ofSafe i32) (Opd.ofBuiltin i32) (-100) 3 = .thrown .negative_value_shift ∧
    shr .native strictException (Opd.range u32 0 100) (Opd.range u32 1 5) 77 3 = .ret 9 ∧
    shrTy .native (Opd.range u32 0 100) (Opd.range u32 1 5) = .ret (Opd.range u32 0 50) ∧
    ShrCovered u32 (Opd.range u32 0 100) (Opd.range u32 1 5) ∧ ShrCovered i32 (Opd.ofSafe i32) (Opd.ofBuiltin i32) := by
  decide +kernel

/-! `loose_exception_policy` ignores the errors of shifts: shifts without error are exact, also where the type admits errors; the
last result is a wrong value, and there the hypothesis `ShlFree` is false -/
example : shl .native looseException (Opd.ofSafe i32) (Opd.range i32 (-40) 40) 5 3 = .ret 40 ∧
    ShlCovered i32 (Opd.ofSafe i32) (Opd.range i32 (-40) 40) ∧ ShlFree i32 5 3 ∧
    shr .native looseException (Opd.ofSafe i32) (Opd.ofBuiltin i32) 100 3 = .ret 12 ∧
    ShrCovered i32 (Opd.ofSafe i32) (Opd.ofBuiltin i32) ∧ ShrFree i32 100 3 ∧ ¬ FullWidth i32 3 ∧
    shl .native looseException (Opd.ofSafe u32) (Opd.ofBuiltin i32) 5 30 = .ret 1073741824 ∧ ¬ ShlFree u32 5 30 := by
  decide +kernel

/-- C26 fails for `<<` when the count may be negative but the result interval has ordinary ends: `[0, 63] << [-1, 1]` is
taken to be free of errors and a count of -1 is undefined behaviour. -/
theorem C26_shl_count_refuted :
    shl .native strictException (Opd.range i32 0 63) (Opd.range i32 (-1) 1) 5 (-1) = .fault .ub := by decide +kernel

/-- C26 fails for `<<` of a negative value that cannot overflow: undefined behaviour (before C++20). -/
theorem C26_shl_negative_refuted :
    shl .native strictException (Opd.range i32 (-10) 10) (Opd.range i32 0 3) (-5) 1 = .fault .ub := by decide +kernel

/-- C26 fails for `<<` of the constant range zero: `0 << 40` in `int` is undefined behaviour. -/
theorem C26_shl_zero_refuted :
    shl .native strictException (Opd.range i32 0 0) (Opd.ofBuiltin i32) 0 40 = .fault .ub := by decide +kernel

/-- C26 fails for `>>` of an unsigned value by its full width: `safe<unsigned>(1) >> 32` is undefined behaviour. -/
theorem C26_shr_width_refuted :
    shr .native strictException (Opd.ofSafe u32) (Opd.ofBuiltin i32) 1 32 = .fault .ub := by decide +kernel

/-- C26 fails for `>>` of an unsigned value by a possibly negative count: no error is expected and `>> -1` is undefined
behaviour. -/
theorem C26_shr_count_refuted :
    shr .native strictException (Opd.ofSafe u32) (Opd.range i32 (-1) 10) 8 (-1) = .fault .ub := by decide +kernel

/-- With the loose exception policy a negative count is ignored and the undefined built-in shift is executed. -/
theorem C26_loose_refuted :
    shl .native looseException (Opd.ofSafe i32) (Opd.ofBuiltin i32) 5 (-1) = .fault .ub ∧
    shr .native looseException (Opd.ofSafe i32) (Opd.ofBuiltin i32) 5 (-1) = .fault .ub := by decide +kernel

/-- C49 fails: `safe<unsigned>(100) >> 1` has the value 50, but the type of the result is the range `[0, 0]`. -/
theorem C49_shr_refuted :
    shr .native strictException (Opd.ofSafe u32) (Opd.ofBuiltin i32) 100 1 = .ret 50 ∧
    shrTy .native (Opd.ofSafe u32) (Opd.ofBuiltin i32) = .ret (Opd.range u32 0 0) := by decide +kernel

/-- A consequence: `(safe<unsigned>(2^31) >> 1) * 4` is taken to be free of errors and wraps to 0; and
`(safe<unsigned>(100) >> 1) < safe_unsigned_range<1, 9>(5)` is true at compile time. -/
theorem C49_consequence_refuted :
    arith .native strictException .mul (Opd.range u32 0 0) (Opd.ofBuiltin u32) 1073741824 4 = .ret 0 ∧
    compare .native strictException .lt (Opd.range u32 0 0) (Opd.range u32 1 9) 50 5 = .ret true := by decide +kernel

end
end Verif.Props
