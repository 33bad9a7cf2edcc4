import Verif.Proofs.Exact
import Verif.Proofs.ExactDiv

/-!
Helper lemmas for C76: exactly when the run time check of `<<` and `>>` is left out, and what happens then, for an arbitrary result
type.
-/

namespace Verif
open Spec Props
section
variable [Arch]

/-! ### left shift -/

/-- a corner of `<<` that is not a value of the type -/
private theorem crShl_out {R : ITy} {a b : Int} (ia : ¬ R.In a) :
    crShl R (castTo R a) (castTo R b) = .ret (
      if (R.signed = false ∧ a < 0) ∨ b < R.min then .err .range_error else if a < R.min then below else above) := by
  have hz := R.min_nonpos; have hm := R.max_ge
  generalize hX : (if (R.signed = false ∧ a < 0) ∨ b < R.min then (.err .range_error : CR) else if a < R.min then below else above) = X
  unfold crShl crShift
  rcases castTo_cases R a with ⟨ea, ia'⟩ | ⟨ea, ia'⟩ | ⟨ea, ia', sa⟩ | ⟨ea, sa, ia'⟩
  · exact absurd ia' ia
  · rw [ea, prodFlag_pos]
    rcases castTo_cases R b with ⟨eb, ib⟩ | ⟨eb, ib⟩ | ⟨eb, ib, sb⟩ | ⟨eb, sb, ib⟩ <;> rw [eb]
    · have := ib.1
      rw [if_neg (by omega), if_neg (by omega)] at hX
      subst hX
      rcases Int.lt_trichotomy b 0 with h | h | h
      · rw [prodFlag_lt ib h]; rfl
      · subst h; rw [prodFlag_zero]; rfl
      · rw [prodFlag_gt ib h]; rfl
    · rw [if_neg (by omega), if_neg (by omega)] at hX
      subst hX; rw [prodFlag_pos]; rfl
    · rw [if_pos (Or.inr ib)] at hX
      subst hX; rw [prodFlag_neg]; rfl
    · have := ITy.min_eq R
      rw [sb] at this
      rw [if_pos (Or.inr (by simp at this; omega))] at hX
      subst hX; rfl
  · rw [ea, prodFlag_neg]
    have ns : ¬ (R.signed = false ∧ a < 0) := fun h => by rw [sa] at h; cases h.1
    rcases castTo_cases R b with ⟨eb, ib⟩ | ⟨eb, ib⟩ | ⟨eb, ib, sb⟩ | ⟨eb, sb, ib⟩ <;> rw [eb]
    · have := ib.1
      rw [if_neg (fun h => h.elim ns (by omega)), if_pos ia'] at hX
      subst hX
      rcases Int.lt_trichotomy b 0 with h | h | h
      · rw [prodFlag_lt ib h]; rfl
      · subst h; rw [prodFlag_zero]; rfl
      · rw [prodFlag_gt ib h]; rfl
    · rw [if_neg (fun h => h.elim ns (by omega)), if_pos ia'] at hX
      subst hX; rw [prodFlag_pos]; rfl
    · rw [if_pos (Or.inr ib)] at hX
      subst hX; rw [prodFlag_neg]; rfl
    · rw [sa] at sb; cases sb
  · rw [if_pos (Or.inl ⟨sa, ia'⟩)] at hX
    subst hX
    rw [ea]
    rcases castTo_cases R b with ⟨eb, ib⟩ | ⟨eb, ib⟩ | ⟨eb, ib, sb⟩ | ⟨eb, sb, ib⟩ <;> rw [eb]
    · rcases Int.lt_trichotomy b 0 with h | h | h
      · rw [prodFlag_lt ib h]; rfl
      · subst h; rw [prodFlag_zero]; rfl
      · rw [prodFlag_gt ib h]; rfl
    · rw [prodFlag_pos]; rfl
    · rw [prodFlag_neg]; rfl
    · rfl

/-- exactly when the run time check of `<<` is left out -/
theorem shl_skipped {R : ITy} (hR : R.Ok) {T U : Opd} (hT : T.Wf) (hU : U.Wf) :
    (staticExc opShl R T U = false ↔ ShlSkipped R T U) ∧ ∃ ri, resItv itvShl R T U = .ret ri := by
  have hz := R.min_nonpos; have hm := R.max_ge
  have hle : T.lo ≤ T.hi := hT.2.2.2.1
  have hleU : U.lo ≤ U.hi := hU.2.2.2.1
  by_cases i : R.In T.lo ∧ R.In T.hi
  · obtain ⟨h1, h2⟩ := shl_unchecked hR hT hU i.1 i.2
    refine ⟨h1.trans ⟨fun h => ⟨i.1, Or.inl ⟨i.2, h⟩⟩, fun h => ?_⟩, h2⟩
    rcases h.2 with h | h
    · exact h.2
    · have := i.2.2; omega
  have cor : ∀ a b, ∃ c, crShl R (castTo R a) (castTo R b) = .ret c ∧ Proper R c := fun a b => by
    obtain ⟨c, e, p, _⟩ := crShl_val hR a b; exact ⟨c, e, p⟩
  obtain ⟨c1, e1, p1⟩ := cor T.lo U.lo
  obtain ⟨c2, e2, p2⟩ := cor T.lo U.hi
  obtain ⟨c3, e3, p3⟩ := cor T.hi U.lo
  obtain ⟨c4, e4, p4⟩ := cor T.hi U.hi
  have hp : ∀ c ∈ [c1, c2, c3, c4], Proper R c := by
    intro c hc; simp at hc; rcases hc with rfl | rfl | rfl | rfl <;> assumption
  obtain ⟨m, M, em, hmem, hMem, _⟩ := minmax_cr c1 [c2, c3, c4] hp
  obtain ⟨m', M', em', h⟩ := ends_iff hp
  rw [em] at em'
  obtain ⟨rfl, rfl⟩ := Prod.mk.inj (Out.ret.inj em')
  have er : resItv itvShl R T U = .ret ⟨m, M⟩ := by
    apply resItv_of hT hU
    simp only [itvShl, corners, minmax4, e1, e2, e3, e4, em, Out.ret_bind]
  refine ⟨?_, _, er⟩
  have es : staticExc opShl R T U = excPossible R ⟨m, M⟩ := by
    unfold staticExc; rw [show resItv opShl.itv R T U = _ from er]
  have ex : excPossible R ⟨m, M⟩ = false ↔ m.exception = false ∧ M.exception = false := by
    have one : ∀ {c : CR}, Proper R c → ((∃ v, c = .ok v) ↔ c.exception = false) := by
      intro c pc
      rcases c with v | e
      · exact ⟨fun _ => rfl, fun _ => ⟨v, rfl⟩⟩
      · have : e ≠ .success := pc
        exact ⟨fun ⟨v, g⟩ => (nomatch g), fun g => by simp [CR.exception, this] at g⟩
    rw [excPossible_eq (hp m hmem) (hp M hMem)]
    exact and_congr (one (hp m hmem)) (one (hp M hMem))
  rw [es, ex, h]
  unfold ShlSkipped
  by_cases i1 : R.In T.lo
  · have i2 : ¬ R.In T.hi := fun g => i ⟨i1, g⟩
    have j1 := i1.1; have j2 := i1.2
    have hhi : R.max < T.hi := by by_contra hc; exact i2 ⟨by omega, by omega⟩
    rw [crShl_out i2] at e3 e4
    have e3 := Out.ret.inj e3
    have e4 := Out.ret.inj e4
    rw [crShl_in hR i1] at e1 e2
    have e1 := Out.ret.inj e1
    have e2 := Out.ret.inj e2
    have n1 : ¬ (R.signed = false ∧ T.hi < 0) := by omega
    constructor
    · rintro ⟨v1, hall⟩
      have hu : U.hi < R.min := by
        by_contra hc
        rw [if_neg (by rintro (g | g); exact n1 g; omega), if_neg (by omega)] at e4
        exact (hall c4 (by simp)).2 e4.symm
      refine ⟨i1, Or.inr ⟨hhi, hu, ?_⟩⟩
      by_contra hc
      push Not at hc
      apply v1
      rw [← e1, if_pos ⟨by simpa using hc.1, hc.2, by omega⟩]
      exact vague_range
    · rintro ⟨_, h | ⟨_, hu, hs⟩⟩
      · exact absurd h.1 i2
      have ns : ¬ (R.signed = false ∧ T.lo ≠ 0) := fun g => by
        rcases hs with hs | hs
        · rw [hs] at g; cases g.1
        · exact g.2 hs
      have low : ∀ b, b ≤ U.hi → ¬ R.max < scale T.lo b := fun b hb => by
        rcases Int.lt_or_le T.lo 0 with g | g
        · have := scale_nonpos (a := T.lo) (b := b) (by omega); omega
        · have := scale_mono (a := T.lo) (b := b) (t := T.lo) (u := 0) g (Int.le_refl _) (by omega)
          rw [scale_nonneg (Int.le_refl 0)] at this
          simp at this
          omega
      rw [if_neg (fun g => ns ⟨g.1, g.2.1⟩), if_neg (low _ hleU), if_neg (by omega)] at e1
      rw [if_neg (fun g => ns ⟨g.1, g.2.1⟩), if_neg (low _ (Int.le_refl _)), if_neg (by omega)] at e2
      rw [if_pos (Or.inr (by omega))] at e3 e4
      subst e1 e2 e3 e4
      refine ⟨not_vague_ok _, ?_⟩
      intro x hx
      simp at hx
      rcases hx with rfl | rfl | rfl <;> exact ⟨by simp, by simp⟩
  · refine iff_of_false ?_ (fun g => i1 g.1)
    rintro ⟨v1, hall⟩
    rw [crShl_out i1] at e1
    have e1 := Out.ret.inj e1
    split_ifs at e1
    · exact v1 (e1 ▸ vague_range)
    · exact (hall c1 (by simp)).1 e1.symm
    · exact (hall c1 (by simp)).2 e1.symm

private theorem shl_plain_ok' {R : ITy} {T U : Opd} (i1 : R.In T.lo) (i2 : R.In T.hi)
    (hx : ShlUnchecked R T U) {t u : Int} (ht : T.Has t) (hu : U.Has u) (t0 : 0 ≤ t) (u0 : 0 ≤ u)
    (hz : T.lo = 0 → T.hi = 0 → 0 ≤ conv R u ∧ conv R u < (promote R).bits) : runPlain opShl R t u = .ret (t * 2 ^ u.toNat) := by
  have t1 := ht.1; have t2 := ht.2; have u1 := hu.1; have u2 := hu.2
  have hm := R.max_ge; have hn := R.min_nonpos
  have j1 := i1.1; have j2 := i2.2
  obtain ⟨_, h2, h3⟩ := hx
  rw [scale_nonneg (by omega)] at h2 h3
  have small : ∀ k, 0 ≤ k → k ≤ U.hi → (2 : Int) ^ k.toNat ≤ R.max + 1 → k ≤ R.digits := fun k k0 _ hk => by
    have : (2 : Int) ^ k.toNat ≤ 2 ^ R.digits := by unfold ITy.max at hk; omega
    have : 2 ^ k.toNat ≤ 2 ^ R.digits := by exact_mod_cast this
    have := (Nat.pow_le_pow_iff_right (by decide : 1 < 2)).1 this
    omega
  have it : R.In t := ⟨by omega, by omega⟩
  by_cases h0 : T.hi = 0
  · have : t = 0 := by omega
    subst this
    by_cases h1 : T.lo = 0
    · have hc := hz h1 h0
      unfold runPlain
      rw [conv_of_in it]
      show (cShl R R 0 (conv R u) >>= _) = _
      unfold cShl
      dsimp only
      rw [conv_of_in (in_promote it), conv_of_in (in_promote (conv_in R u)), if_neg (by omega)]
      simp only [Int.zero_mul]
      rw [conv_of_in (in_promote it)]
      have : (promote R).toUnsigned.In 0 := ITy.in_zero _
      simp only [this, Int.lt_irrefl, if_false, if_true, ite_self, Out.ret_bind]
      rw [conv_of_in it]
    · have hlo : T.lo < 0 := by omega
      have hs : R.signed = true := by
        rcases hs : R.signed with _ | _
        · have := i1.nonneg hs; omega
        · rfl
      have hb : u < R.bits := by
        by_cases hU0 : U.hi = 0
        · have := R.bits_pos; omega
        · have h4 : R.min < T.lo * 2 ^ U.hi.toNat := by
            by_contra hc; exact h3 ⟨hlo, by omega, by omega⟩
          have e := ITy.min_eq R
          rw [hs, if_pos rfl] at e
          have h5 := two_pow_pos U.hi.toNat
          have h6 := small U.hi (by omega) (Int.le_refl _) (by nlinarith)
          have := ITy.digits_signed hs
          omega
      have iu : R.In u := ⟨by omega, by
        have := (in_digits R).2
        have := ITy.digits_signed hs
        omega⟩
      exact plainShl it iu (by omega) u0 hb (by rw [Int.zero_mul]; exact it)
  · have m := mul_pow_mono (a := t) (b := u) (t := T.hi) (u := U.hi) (by omega) t2 u2
    have g2 := mul_pow_ge (a := t) (b := u) (by omega)
    have g3 : (2 : Int) ^ u.toNat ≤ R.max := by
      have := mul_pow_mono (a := 1) (b := u) (t := T.hi) (u := U.hi) (by omega) (by omega) u2
      omega
    have g4 := lt_two_pow_toNat (k := u) (by omega)
    have hb : u < R.bits := by
      have g5 : R.max < 2 ^ R.bits := by
        have := two_pow_le (digits_le_bits R)
        unfold ITy.max; omega
      have g6 : (2 : Int) ^ u.toNat < 2 ^ R.bits := by omega
      have g6 : 2 ^ u.toNat < 2 ^ R.bits := by exact_mod_cast g6
      have := (Nat.pow_lt_pow_iff_right (by decide : 1 < 2)).1 g6
      omega
    exact plainShl it ⟨by omega, by omega⟩ (by omega) u0 hb ⟨by omega, by omega⟩

private theorem shl_plain_neg' {R : ITy} {t u : Int} (it : R.In t) (t0 : t < 0) : runPlain opShl R t u = .fault .ub := by
  have hs : R.signed = true := by
    rcases hs : R.signed with _ | _
    · have := it.nonneg hs; omega
    · rfl
  unfold runPlain
  show (cShl R R _ (conv R u) >>= _) = _
  unfold cShl
  dsimp only
  rw [conv_of_in it, conv_of_in (in_promote it), promote_signed hs]
  simp only [if_true]
  rw [if_pos t0]
  split_ifs <;> rfl

private theorem shl_plain_far' {R : ITy} {t u : Int} (h : ¬ (0 ≤ conv R u ∧ conv R u < (promote R).bits)) :
    runPlain opShl R t u = .fault .ub := by
  unfold runPlain
  show (cShl R R _ (conv R u) >>= _) = _
  unfold cShl
  dsimp only
  rw [conv_of_in (in_promote (conv_in R u)), if_pos (by omega)]
  rfl

/-- for which values `<<` goes wrong -/
theorem runShl_exact {p : EP} (hp : p.ae = .throw) (hi : p.idb = .throw) {R : ITy} (hR : R.Ok) {T U : Opd} (hT : T.Wf) (hU : U.Wf)
    {t u : Int} (ht : T.Has t) (hu : U.Has u) : ShlRight (runOp opShl p R T U t u) t u ↔ ¬ LeftWrong R T U t u := by
  obtain ⟨hx, ri, e⟩ := shl_skipped hR hT hU
  have t1 := ht.1; have t2 := ht.2; have u1 := hu.1; have u2 := hu.2; have hz := R.min_nonpos
  rw [runOp_cases (op := opShl) e]
  by_cases hs : staticExc opShl R T U = true
  · have hn : ¬ ShlSkipped R T U := fun g => by rw [hx.2 g] at hs; cases hs
    rw [if_pos hs, checkedShl_throw hR hp hi hT ht hU hu]
    refine iff_of_true ?_ (fun g => hn g.1)
    split
    · rcases shlIn_cases R t u with ⟨v, h⟩ | ⟨e, h⟩
      · obtain ⟨rfl, h0, _⟩ := shlIn_ret h
        exact Or.inl ⟨h, h0⟩
      · exact Or.inr (Or.inl ⟨e, h⟩)
    · exact Or.inr (Or.inr rfl)
  · have hn : ShlSkipped R T U := hx.1 (by simpa using hs)
    rw [if_neg hs]
    have quiet := plainShl_quiet R t u
    constructor
    · rintro (⟨g, g0⟩ | ⟨e, g⟩ | g) ⟨_, w⟩
      · rcases hn.2 with ⟨i2, _⟩ | h
        · have j1 := hn.1.1; have j2 := i2.2
          rcases w with w | w | ⟨_, _, w⟩
          · rw [shl_plain_neg' ⟨by omega, by omega⟩ w] at g; cases g
          · omega
          · rw [shl_plain_far' w] at g; cases g
        · omega
      · exact quiet.1 e g
      · exact quiet.2 g
    · intro w
      have t0 : 0 ≤ t := by by_contra hc; exact w ⟨hn, Or.inl (by omega)⟩
      have u0 : 0 ≤ u := by by_contra hc; exact w ⟨hn, Or.inr (Or.inl (by omega))⟩
      rcases hn.2 with ⟨i2, hs⟩ | h
      · exact Or.inl ⟨shl_plain_ok' hn.1 i2 hs ht hu t0 u0 fun a b => by
          by_contra hc; exact w ⟨hn, Or.inr (Or.inr ⟨a, b, hc⟩)⟩, u0⟩
      · omega

/-! ### right shift -/

theorem shr_rejects {R : ITy} (hR : R.Ok) {T U : Opd} (hT : T.Wf) (hU : U.Wf) (h : RightRejected R T U) :
    resItv itvShr R T U = .fault .illFormed := by
  rcases itvShr_corners hR T.lo T.hi U.lo U.hi with ⟨f, e⟩ | ⟨c1, c2, c3, c4, ri, e1, e2, e3, e4, _⟩
  · apply static_fault (f := f)
    rw [castItv_eq hT, castItv_eq hU]
    exact e
  · exfalso
    obtain ⟨hb, ha⟩ := h
    rcases ha with ⟨h0, i⟩ | ⟨h0, i⟩ <;> rcases hb with ⟨hs, hl, hb⟩ | ⟨hs, hl, hb⟩
    · rw [crShr_fullWidth hR i ⟨hs, hl, hb, h0⟩] at e1; cases e1
    · rw [crShr_fullWidth hR i ⟨hs, hl, hb, h0⟩] at e2; cases e2
    · rw [crShr_fullWidth hR i ⟨hs, hl, hb, h0⟩] at e3; cases e3
    · rw [crShr_fullWidth hR i ⟨hs, hl, hb, h0⟩] at e4; cases e4

omit [Arch] in
private theorem bits_in {R : ITy} (hs : R.signed = false) : R.In (R.bits : Int) := by
  have := in_digits R; rwa [ITy.digits_unsigned hs] at this

/-- exactly when the run time check of `>>` is left out -/
theorem shr_skipped {R : ITy} (hR : R.Ok) {T U : Opd} (hT : T.Wf) (hU : U.Wf) (h : ¬ RightRejected R T U) :
    ∃ ri, resItv itvShr R T U = .ret ri ∧
      (shrExcPossible R ⟨castTo R T.lo, castTo R T.hi⟩ ⟨castTo R U.lo, castTo R U.hi⟩ ri = false ↔ ShrSkipped R T U) := by
  have hz := R.min_nonpos; have hm := R.max_ge; have hmn := ITy.min_eq R
  have hle : T.lo ≤ T.hi := hT.2.2.2.1
  have hleU : U.lo ≤ U.hi := hU.2.2.2.1
  have cor : ∀ a b, a = T.lo ∨ a = T.hi → b = U.lo ∨ b = U.hi →
      ∃ c, crShr R (castTo R a) (castTo R b) = .ret c ∧ Proper R c := fun a b ha hb => by
    by_cases g : ShrBad R a b
    · rcases crShr_bad hR g with e | e
      · by_cases ia : R.In a
        · exfalso
          obtain ⟨hs, hl, h1, h0⟩ := g
          refine h ⟨?_, ?_⟩
          · rcases hb with rfl | rfl
            · exact Or.inl ⟨hs, hl, h1⟩
            · exact Or.inr ⟨hs, hl, h1⟩
          · rcases ha with rfl | rfl
            · exact Or.inl ⟨h0, ia⟩
            · exact Or.inr ⟨h0, ia⟩
        · exfalso
          obtain ⟨hs, hl, h1, h0⟩ := g
          have ib := bits_in hs
          rw [h1] at e
          have hb0 := R.bits_pos
          unfold crShr crShift at e
          rcases castTo_cases R a with ⟨ea, ia'⟩ | ⟨ea, ia'⟩ | ⟨ea, ia', sa⟩ | ⟨ea, sa, ia'⟩
          · exact ia ia'
          · rw [ea, prodFlag_pos, castTo_of_in ib, prodFlag_gt ib (by omega)] at e; cases e
          · rw [hs] at sa; cases sa
          · omega
      · exact ⟨_, e, (crShr_ret hR e).1⟩
    · obtain ⟨r, e, p, _⟩ := crShr_val hR a b g
      exact ⟨r, e, p⟩
  obtain ⟨c1, e1, p1⟩ := cor T.lo U.lo (Or.inl rfl) (Or.inl rfl)
  obtain ⟨c2, e2, p2⟩ := cor T.lo U.hi (Or.inl rfl) (Or.inr rfl)
  obtain ⟨c3, e3, p3⟩ := cor T.hi U.lo (Or.inr rfl) (Or.inl rfl)
  obtain ⟨c4, e4, p4⟩ := cor T.hi U.hi (Or.inr rfl) (Or.inr rfl)
  have hp : ∀ c ∈ [c1, c2, c3, c4], Proper R c := by
    intro c hc; simp at hc; rcases hc with rfl | rfl | rfl | rfl <;> assumption
  obtain ⟨m, M, em, hh⟩ := ends_iff hp
  have er : resItv itvShr R T U = .ret ⟨m, M⟩ := by
    apply resItv_of hT hU
    simp only [itvShr, corners, minmax4, e1, e2, e3, e4, em, Out.ret_bind]
  refine ⟨_, er, ?_⟩
  have hd := in_digits R
  have k1 : (crGt R (castTo R U.hi) (.ok (conv R (R.digits : Int)))).toBool = decide ((R.digits : Int) < U.hi) := by
    rw [conv_of_in hd, ← castTo_of_in hd, Bool.eq_iff_iff, decide_eq_true_iff]
    exact crLt_castTo.trans ⟨fun g => g.1, fun g => ⟨g, hd.2, by omega, fun _ => by omega⟩⟩
  have k2 : ∀ x, (crLt R (castTo R x) (.ok 0)).toBool = decide (R.signed = true ∧ x < 0) := fun x => by
    rw [← castTo_of_in R.in_zero, Bool.eq_iff_iff, decide_eq_true_iff]
    refine crLt_castTo.trans ⟨fun g => ⟨?_, g.1⟩, fun g => ⟨g.2, by omega, hz, fun s => by rw [g.1] at s; cases s⟩⟩
    by_contra hc
    have := g.2.2.2 (by simpa using hc)
    omega
  have ks : shrExcPossible R ⟨castTo R T.lo, castTo R T.hi⟩ ⟨castTo R U.lo, castTo R U.hi⟩ ⟨m, M⟩ = false ↔
      U.hi ≤ R.digits ∧ ¬ (R.signed = true ∧ T.lo < 0) ∧ ¬ (R.signed = true ∧ U.lo < 0) ∧
      ¬ Vague c1 ∧ ∀ x ∈ [c1, c2, c3, c4], x ≠ below ∧ x ≠ above := by
    rw [← hh]
    unfold shrExcPossible
    simp only [T3.or_toBool, k1, k2, Bool.or_eq_false_iff, decide_eq_false_iff_not]
    have ob : ∀ b : Bool, (T3.ofBool b).toBool = b := by decide
    rw [ob, ob]
    constructor
    · rintro ⟨⟨⟨⟨a, b⟩, c⟩, d⟩, e⟩
      exact ⟨by omega, b, c, d, e⟩
    · rintro ⟨a, b, c, d, e⟩
      exact ⟨⟨⟨⟨by omega, b⟩, c⟩, d⟩, e⟩
  rw [ks]
  unfold ShrSkipped
  -- the corners
  have fine : ∀ {a b c}, crShr R (castTo R a) (castTo R b) = .ret c → R.In a → 0 ≤ a → 0 ≤ b → ∃ v, c = .ok v := by
    intro a b c e ia a0 b0
    rcases (crShr_ret hR e).2 with ⟨g, _⟩ | ⟨_, _, g⟩ | ⟨_, g, _⟩ | ⟨_, _, g⟩
    · exact ⟨_, g⟩
    · have := g ia; omega
    · omega
    · rcases g with g | g
      · omega
      · exact absurd ia g.2
  have over : ∀ {a b c}, crShr R (castTo R a) (castTo R b) = .ret c → R.max < a → 0 ≤ b → b ≤ R.digits → c = above := by
    intro a b c e ia b0 b1
    have := hd.2
    rcases (crShr_ret hR e).2 with ⟨_, g⟩ | ⟨g, _⟩ | ⟨_, g, _⟩ | ⟨_, _, g⟩
    · have := g.2; omega
    · exact g
    · omega
    · omega
  have zero : ∀ {b c}, crShr R (castTo R 0) (castTo R b) = .ret c → ∃ v, c = .ok v := by
    intro b c e
    rcases (crShr_ret hR e).2 with ⟨g, _⟩ | ⟨_, g, _⟩ | ⟨_, g, _⟩ | ⟨_, g, _⟩
    · exact ⟨_, g⟩
    · omega
    · omega
    · exact absurd rfl g
  have okne : ∀ {c : CR}, (∃ v, c = .ok v) → ¬ Vague c ∧ c ≠ below ∧ c ≠ above := by
    rintro c ⟨v, rfl⟩; exact ⟨not_vague_ok _, by simp, by simp⟩
  have vne : ∀ {c : CR}, c = .err .range_error → c ≠ below ∧ c ≠ above := by
    rintro c rfl; exact ⟨by simp, by simp⟩
  have comb : ¬ Vague c1 → c1 ≠ below ∧ c1 ≠ above → c2 ≠ below ∧ c2 ≠ above → c3 ≠ below ∧ c3 ≠ above → c4 ≠ below ∧ c4 ≠ above →
      ¬ Vague c1 ∧ ∀ x ∈ [c1, c2, c3, c4], x ≠ below ∧ x ≠ above := by
    intro v q1 q2 q3 q4
    refine ⟨v, fun x hx => ?_⟩
    simp only [List.mem_cons, List.not_mem_nil, or_false] at hx
    rcases hx with g | g | g | g <;> rw [g] <;> assumption
  rcases hs : R.signed with _ | _
  · -- unsigned
    rw [hs] at hmn
    simp only [Bool.false_eq_true, if_false] at hmn
    constructor
    · rintro ⟨a, _, _, v, all⟩
      refine ⟨a, ?_⟩
      rcases Int.lt_or_le U.lo 0 with hu | hu
      · have t0 : T.lo = 0 := by
          by_contra hc
          rw [crShr_vague hs hc (Or.inr hu)] at e1
          exact v (Out.ret.inj e1 ▸ vague_range)
        refine Or.inr ⟨rfl, t0, hu, ?_⟩
        by_contra hc
        push Not at hc
        exact (all c4 (by simp)).2 (over e4 hc.2 hc.1 a)
      · have t0 : 0 ≤ T.lo := by
          by_contra hc
          rw [crShr_vague hs (by omega) (Or.inl (by omega))] at e1
          exact v (Out.ret.inj e1 ▸ vague_range)
        refine Or.inl ⟨t0, ?_, hu⟩
        by_contra hc
        exact (all c4 (by simp)).2 (over e4 (by omega) (by omega) a)
    · rintro ⟨a, ⟨t0, t1, u0⟩ | ⟨_, t0, u0, t1⟩⟩
      · have i1 : R.In T.lo := ⟨by omega, by omega⟩
        have i2 : R.In T.hi := ⟨by omega, by omega⟩
        have o1 := okne (fine e1 i1 t0 u0)
        exact ⟨a, by simp, by simp, comb o1.1 o1.2 (okne (fine e2 i1 t0 (by omega))).2 (okne (fine e3 i2 (by omega) u0)).2
          (okne (fine e4 i2 (by omega) (by omega))).2⟩
      · rw [t0] at e1 e2
        have o1 := okne (zero e1)
        refine ⟨a, by simp, by simp, comb o1.1 o1.2 (okne (zero e2)).2 ?_ ?_⟩
        · by_cases h0 : T.hi = 0
          · rw [h0] at e3; exact (okne (zero e3)).2
          · rw [crShr_vague hs h0 (Or.inr u0)] at e3
            exact vne (Out.ret.inj e3).symm
        · by_cases h0 : T.hi = 0
          · rw [h0] at e4; exact (okne (zero e4)).2
          · rcases Int.lt_or_le U.hi 0 with hu | hu
            · rw [crShr_vague hs h0 (Or.inr hu)] at e4
              exact vne (Out.ret.inj e4).symm
            · exact (okne (fine e4 ⟨by omega, by omega⟩ (by omega) hu)).2
  · -- signed
    constructor
    · rintro ⟨a, b, c, v, all⟩
      have b : 0 ≤ T.lo := by by_contra g; exact b ⟨rfl, by omega⟩
      have c : 0 ≤ U.lo := by by_contra g; exact c ⟨rfl, by omega⟩
      refine ⟨a, Or.inl ⟨b, ?_, c⟩⟩
      by_contra hc
      exact (all c4 (by simp)).2 (over e4 (by omega) (by omega) a)
    · rintro ⟨a, ⟨t0, t1, u0⟩ | ⟨g, _⟩⟩
      · have i1 : R.In T.lo := ⟨by omega, by omega⟩
        have i2 : R.In T.hi := ⟨by omega, by omega⟩
        have o1 := okne (fine e1 i1 t0 u0)
        exact ⟨a, by omega, by omega, comb o1.1 o1.2 (okne (fine e2 i1 t0 (by omega))).2 (okne (fine e3 i2 (by omega) u0)).2
          (okne (fine e4 i2 (by omega) (by omega))).2⟩
      · cases g

private theorem shr_plain_width' {R : ITy} {t u : Int} (h : FullWidth R u) : runPlain opShr R t u = .fault .ub := by
  obtain ⟨hs, hl, rfl⟩ := h
  have iu := bits_in hs
  unfold runPlain
  show (cShr R R _ (conv R (R.bits : Int)) >>= _) = _
  unfold cShr
  dsimp only
  rw [promote_of_ge hl, conv_of_in iu, conv_of_in iu, if_pos (by omega)]
  rfl

/-- for which values `>>` goes wrong -/
theorem runShr_exact {p : EP} (hp : p.ae = .throw) (hi : p.idb = .throw) {R : ITy} (hR : R.Ok) {T U : Opd} (hT : T.Wf) (hU : U.Wf)
    {t u : Int} (ht : T.Has t) (hu : U.Has u) : ShrRight (runShr p R T U t u) t u ↔ ¬ RightWrong R T U t u := by
  have t1 := ht.1; have t2 := ht.2; have u1 := hu.1; have u2 := hu.2; have hz := R.min_nonpos
  by_cases hrej : RightRejected R T U
  · refine iff_of_true (Or.inr (Or.inr ?_)) (fun g => g.1 hrej)
    unfold runShr
    rw [shr_rejects hR hT hU hrej]; rfl
  obtain ⟨ri, e, hx⟩ := shr_skipped hR hT hU hrej
  have run : runShr p R T U t u =
      if shrExcPossible R ⟨castTo R T.lo, castTo R T.hi⟩ ⟨castTo R U.lo, castTo R U.hi⟩ ri = true then
        runChecked opShr p R T U t u else runPlain opShr R t u := by
    unfold runShr
    rw [e, castItv_eq hT, castItv_eq hU]
    rfl
  rw [run]
  by_cases hs : shrExcPossible R ⟨castTo R T.lo, castTo R T.hi⟩ ⟨castTo R U.lo, castTo R U.hi⟩ ri = true
  · have hn : ¬ ShrSkipped R T U := fun g => by rw [hx.2 g] at hs; cases hs
    rw [if_pos hs, checkedShr_throw hR hp hi hT ht hU hu]
    by_cases hf : FullWidth R u
    · by_cases it : R.In t
      · refine iff_of_false ?_ (fun g => g ⟨hrej, Or.inl ⟨hf, it⟩⟩)
        have hf' := hf
        obtain ⟨hs, hl, hb⟩ := hf'
        have iu : R.In u := hb ▸ bits_in hs
        have t0 := it.nonneg hs
        have ub : shrIn R t u = .fault .ub := by
          unfold shrIn
          rw [castTo_of_in it, castTo_of_in iu]
          simp only [orThrow, Out.ret_bind]
          rw [if_neg (by have := R.bits_pos; omega), if_neg (by rw [ITy.digits_unsigned hs]; omega), if_neg (by omega), if_pos ⟨hs, hl, hb⟩]
        rw [if_pos (litsOk_value hT hU ht hu it iu), ub]
        rintro (⟨g, _⟩ | ⟨e, g⟩ | g) <;> cases g
      · refine iff_of_true ?_ (fun g => g.2.elim (fun g => it g.2) (fun g => hn g.1))
        split
        · refine Or.inr (Or.inl ?_)
          unfold shrIn
          rcases ct : castTo R t with a | x
          · exact absurd (castTo_ok ct).2 (by obtain ⟨rfl, _⟩ := castTo_ok ct; exact it)
          · exact ⟨x, rfl⟩
        · exact Or.inr (Or.inr rfl)
    · refine iff_of_true ?_ (fun g => g.2.elim (fun g => hf g.1) (fun g => hn g.1))
      split
      · rcases shrIn_cases R t u hf with ⟨v, h⟩ | ⟨e, h⟩
        · obtain ⟨rfl, h0, h1, _⟩ := shrIn_ret h
          exact Or.inl ⟨h, h0, h1⟩
        · exact Or.inr (Or.inl ⟨e, h⟩)
      · exact Or.inr (Or.inr rfl)
  · have hn : ShrSkipped R T U := hx.1 (by simpa using hs)
    rw [if_neg hs]
    have quiet := plainShr_quiet R t u
    rcases Int.lt_or_le u 0 with h0 | h0
    · refine iff_of_false ?_ (fun g => g ⟨hrej, Or.inr ⟨hn, h0⟩⟩)
      rintro (⟨_, g, _⟩ | ⟨e, g⟩ | g)
      · omega
      · exact quiet.1 e g
      · exact quiet.2 g
    · have hb := hn.1
      have hr : 0 ≤ T.lo ∧ T.hi ≤ R.max := by rcases hn.2 with g | g <;> omega
      have it : R.In t := ⟨by omega, by omega⟩
      have iu : R.In u := ⟨by omega, by have := (in_digits R).2; omega⟩
      by_cases hf : FullWidth R u
      · refine iff_of_false ?_ (fun g => g ⟨hrej, Or.inl ⟨hf, it⟩⟩)
        rw [shr_plain_width' hf]
        rintro (⟨g, _⟩ | ⟨e, g⟩ | g) <;> cases g
      · refine iff_of_true (Or.inl ⟨plainShr it iu (by omega) h0 ?_, h0, by omega⟩) (fun g => g.2.elim (fun g => hf g.1) (fun g => by omega))
        have hpb := promote_bits_ge R
        by_contra hc
        have dle : (R.digits : Int) ≤ R.bits := by exact_mod_cast digits_le_bits R
        have hbits : (promote R).bits = R.bits := by omega
        have hsg : R.signed = false := by
          rcases g : R.signed with _ | _
          · rfl
          · have := ITy.digits_signed g; have := R.bits_pos; omega
        refine hf ⟨hsg, ?_, by omega⟩
        by_contra hl
        have := ITy.bits_lt (T := R) (U := promote R) (by unfold promote; rw [if_pos (by omega)]; simp only [tInt]; omega)
        have := R.bits_pos
        omega

end
end Verif
