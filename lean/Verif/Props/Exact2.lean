import Verif.Proofs.Exact
import Verif.Proofs.ExactMod
import Verif.Proofs.ExactShift

/-!
Property C76: for which operands exactly the shift (native promotion), quotient and remainder operators (any promotion policy) of safe
types deviate, with a policy that throws. The predicates are in `ExactSpec`.
-/

namespace Verif.Props
open Spec
section
variable [Arch]

private theorem shl_plain_ok {R : ITy} (hl : promote R = R) {T U : Opd} (i1 : R.In T.lo) (i2 : R.In T.hi)
    (hx : ShlUnchecked R T U) {t u : Int} (ht : T.Has t) (hu : U.Has u) (t0 : 0 ≤ t) (u0 : 0 ≤ u)
    (hz : T.lo = 0 → T.hi = 0 → 0 ≤ conv R u ∧ conv R u < R.bits) : runPlain opShl R t u = .ret (t * 2 ^ u.toNat) := by
  have t1 := ht.1; have t2 := ht.2; have u1 := hu.1; have u2 := hu.2
  have hm := R.max_ge; have hn := R.min_nonpos
  have j1 := i1.1; have j2 := i2.2
  obtain ⟨_, h2, h3⟩ := hx
  rw [scale_nonneg (by omega)] at h2 h3
  have small : ∀ k, 0 ≤ k → k ≤ U.hi → (2 : Int) ^ k.toNat ≤ R.max + 1 → k ≤ R.digits := fun k k0 _ hk => by
    have : (2 : Int) ^ k.toNat ≤ 2 ^ R.digits := by unfold ITy.max at hk; omega
    have : 2 ^ k.toNat ≤ 2 ^ R.digits := by exact_mod_cast this
    have := (Nat.pow_le_pow_iff_right (by decide : 1 < 2)).1 this
    omega
  have it : R.In t := ⟨by omega, by omega⟩
  by_cases h0 : T.hi = 0
  · have : t = 0 := by omega
    subst this
    by_cases h1 : T.lo = 0
    · have hc := hz h1 h0
      unfold runPlain
      rw [conv_of_in it]
      show (cShl R R 0 (conv R u) >>= _) = _
      unfold cShl
      dsimp only
      rw [hl, conv_of_in it, conv_of_in (conv_in R u), if_neg (by omega)]
      simp only [Int.zero_mul]
      rw [conv_of_in it]
      have : R.toUnsigned.In 0 := ITy.in_zero _
      simp only [this, Int.lt_irrefl, if_false, if_true, ite_self, Out.ret_bind]
      rw [conv_of_in it]
    · have hlo : T.lo < 0 := by omega
      have hb : u < R.bits := by
        by_cases hU0 : U.hi = 0
        · have := R.bits_pos; omega
        · have h4 : R.min < T.lo * 2 ^ U.hi.toNat := by
            by_contra hc; exact h3 ⟨hlo, by omega, by omega⟩
          have e := ITy.min_eq R
          have hs : R.signed = true := by
            rcases hs : R.signed with _ | _
            · have := i1.nonneg hs; omega
            · rfl
          rw [hs, if_pos rfl] at e
          have h5 := two_pow_pos U.hi.toNat
          have h6 := small U.hi (by omega) (Int.le_refl _) (by nlinarith)
          have := ITy.digits_signed hs
          omega
      have iu : R.In u := ⟨by omega, by
        have := (in_digits R).2
        have hs : R.signed = true := by
          rcases hs : R.signed with _ | _
          · have := i1.nonneg hs; omega
          · rfl
        have := ITy.digits_signed hs
        omega⟩
      exact plainShl it iu (by omega) u0 hb (by rw [Int.zero_mul]; exact it)
  · have m := mul_pow_mono (a := t) (b := u) (t := T.hi) (u := U.hi) (by omega) t2 u2
    have g2 := mul_pow_ge (a := t) (b := u) (by omega)
    have g3 : (2 : Int) ^ u.toNat ≤ R.max := by
      have := mul_pow_mono (a := 1) (b := u) (t := T.hi) (u := U.hi) (by omega) (by omega) u2
      omega
    have g4 := lt_two_pow_toNat (k := u) (by omega)
    have hb : u < R.bits := by
      have g5 : R.max < 2 ^ R.bits := by
        have := two_pow_le (digits_le_bits R)
        unfold ITy.max; omega
      have g6 : (2 : Int) ^ u.toNat < 2 ^ R.bits := by omega
      have g6 : 2 ^ u.toNat < 2 ^ R.bits := by exact_mod_cast g6
      have := (Nat.pow_lt_pow_iff_right (by decide : 1 < 2)).1 g6
      omega
    exact plainShl it ⟨by omega, by omega⟩ (by omega) u0 hb ⟨by omega, by omega⟩

private theorem shl_plain_neg {R : ITy} (hl : promote R = R) {t u : Int} (it : R.In t) (t0 : t < 0) :
    runPlain opShl R t u = .fault .ub := by
  have hs : R.signed = true := by
    rcases hs : R.signed with _ | _
    · have := it.nonneg hs; omega
    · rfl
  unfold runPlain
  show (cShl R R _ (conv R u) >>= _) = _
  unfold cShl
  dsimp only
  rw [hl, conv_of_in it, conv_of_in (conv_in R u), hs, conv_of_in it]
  simp only [if_true]
  rw [if_pos t0]
  split_ifs <;> rfl

private theorem shl_plain_far {R : ITy} (hl : promote R = R) {t u : Int}
    (h : ¬ (0 ≤ conv R u ∧ conv R u < R.bits)) : runPlain opShl R t u = .fault .ub := by
  unfold runPlain
  show (cShl R R _ (conv R u) >>= _) = _
  unfold cShl
  dsimp only
  rw [hl, conv_of_in (conv_in R u), if_pos (by omega)]
  rfl

/-- C76 for `<<`: exact (and then the count is not negative), an exception, or a program that does not compile - if and only
if the operands are not those of `ShlWrong`. -/
theorem C76_shl (p : EP) (hp : p.ae = .throw) (hi : p.idb = .throw) (T U : Opd) (hT : T.Wf) (hU : U.Wf) (t u : Int)
    (ht : T.Has t) (hu : U.Has u) :
    ShlRight (shl .native p T U t u) t u ↔ ¬ ShlWrong (promote T.base) T U t u := by
  have hR := promote_ok hT.1
  have hl := promote_promote T.base
  have i1 := in_promote hT.2.1
  have i2 := in_promote hT.2.2.1
  show ShlRight (runOp opShl p (promote T.base) T U t u) t u ↔ _
  generalize promote T.base = R at *
  have it : R.In t := ⟨Int.le_trans i1.1 ht.1, Int.le_trans ht.2 i2.2⟩
  obtain ⟨hx, ri, e⟩ := shl_unchecked hR hT hU i1 i2
  rw [runOp_cases (op := opShl) e]
  by_cases hs : staticExc opShl R T U = true
  · have hn : ¬ ShlUnchecked R T U := fun g => by rw [hx.2 g] at hs; cases hs
    rw [if_pos hs, checkedShl_throw hR hp hi hT ht hU hu]
    refine iff_of_true ?_ (fun g => hn g.1)
    split
    · rcases shlIn_cases R t u with ⟨v, h⟩ | ⟨e, h⟩
      · obtain ⟨rfl, h0, _⟩ := shlIn_ret h
        exact Or.inl ⟨h, h0⟩
      · exact Or.inr (Or.inl ⟨e, h⟩)
    · exact Or.inr (Or.inr rfl)
  · have hn : ShlUnchecked R T U := hx.1 (by simpa using hs)
    rw [if_neg hs]
    have quiet := plainShl_quiet R t u
    constructor
    · rintro (⟨g, g0⟩ | ⟨e, g⟩ | g) ⟨_, w⟩
      · rcases w with w | w | ⟨_, _, w⟩
        · rw [shl_plain_neg hl it w] at g; cases g
        · omega
        · rw [shl_plain_far hl w] at g; cases g
      · exact quiet.1 e g
      · exact quiet.2 g
    · intro w
      have t0 : 0 ≤ t := by by_contra hc; exact w ⟨hn, Or.inl (by omega)⟩
      have u0 : 0 ≤ u := by by_contra hc; exact w ⟨hn, Or.inr (Or.inl (by omega))⟩
      exact Or.inl ⟨shl_plain_ok hl i1 i2 hn ht hu t0 u0 fun a b => by
        by_contra hc; exact w ⟨hn, Or.inr (Or.inr ⟨a, b, hc⟩)⟩, u0⟩

private theorem shr_plain_width {R : ITy} (hl : promote R = R) {t u : Int} (iu : R.In u) (h : u = R.bits) :
    runPlain opShr R t u = .fault .ub := by
  unfold runPlain
  show (cShr R R _ (conv R u) >>= _) = _
  unfold cShr
  dsimp only
  rw [hl, conv_of_in iu, conv_of_in iu, if_pos (by omega)]
  rfl

private theorem shrRight_of {R : ITy} {t u : Int} (hf : ¬ FullWidth R u) {T U : Opd} :
    ShrRight (if LitsOk R T U then shrIn R t u else .fault .illFormed) t u := by
  split
  · rcases shrIn_cases R t u hf with ⟨v, h⟩ | ⟨e, h⟩
    · obtain ⟨rfl, h0, h1, _⟩ := shrIn_ret h
      exact Or.inl ⟨h, h0, h1⟩
    · exact Or.inr (Or.inl ⟨e, h⟩)
  · exact Or.inr (Or.inr rfl)

/-- C76 for `>>`: exact (and then neither operand is negative), an exception, or a program that does not compile - if and only
if the operands are not those of `ShrWrong`. -/
theorem C76_shr (p : EP) (hp : p.ae = .throw) (hi : p.idb = .throw) (T U : Opd) (hT : T.Wf) (hU : U.Wf) (t u : Int)
    (ht : T.Has t) (hu : U.Has u) :
    ShrRight (shr .native p T U t u) t u ↔ ¬ ShrWrong (promote T.base) T U u := by
  have hR := promote_ok hT.1
  have hl := promote_promote T.base
  have hlg := promote_lg' T.base
  have i1 := in_promote hT.2.1
  have i2 := in_promote hT.2.2.1
  show ShrRight (runShr p (promote T.base) T U t u) t u ↔ _
  generalize promote T.base = R at *
  have it : R.In t := ⟨Int.le_trans i1.1 ht.1, Int.le_trans ht.2 i2.2⟩
  have t1 := ht.1; have t2 := ht.2; have u1 := hu.1; have u2 := hu.2
  by_cases hrej : ShrRejected R T U
  · refine iff_of_true (Or.inr (Or.inr ?_)) (fun g => g.2.1 hrej)
    unfold runShr
    rw [shr_rejected hR hlg hT hU i2 hrej]; rfl
  obtain ⟨ri, e⟩ := shr_accepted hR hT hU hrej
  have run : runShr p R T U t u =
      if shrExcPossible R ⟨castTo R T.lo, castTo R T.hi⟩ ⟨castTo R U.lo, castTo R U.hi⟩ ri = true then
        runChecked opShr p R T U t u else runPlain opShr R t u := by
    unfold runShr
    rw [e, castItv_eq hT, castItv_eq hU]
    rfl
  by_cases hf : R.signed = false ∧ u = R.bits
  · obtain ⟨hs, hw⟩ := hf
    have hd := in_digits R
    rw [ITy.digits_unsigned hs] at hd
    have iu : R.In u := hw ▸ hd
    refine iff_of_false ?_ (fun g => g ⟨hs, hrej, Or.inl hw⟩)
    have : runShr p R T U t u = .fault .ub := by
      rw [run]
      split
      · rw [checkedShr_throw hR hp hi hT ht hU hu, if_pos (litsOk_value hT hU ht hu it iu)]
        unfold shrIn
        rw [castTo_of_in it, castTo_of_in iu]
        simp only [orThrow, Out.ret_bind]
        have := it.nonneg hs
        rw [if_neg (by omega), if_neg (by rw [ITy.digits_unsigned hs]; omega), if_neg (by omega),
          if_pos (show R.signed = false ∧ Arch.intLg ≤ R.lg ∧ u = R.bits from ⟨hs, hlg, hw⟩)]
      · exact shr_plain_width hl iu hw
    rw [this]
    rintro (⟨g, _⟩ | ⟨e, g⟩ | g) <;> cases g
  have hfw : ¬ FullWidth R u := fun g => hf ⟨g.1, g.2.2⟩
  by_cases hc : ShrCovered R T U
  · refine iff_of_true ?_ ?_
    · rcases shr_eq hR hp hi hT hU hc ht hu hfw with g | g | ⟨g, g1, g0, _⟩
      · exact Or.inr (Or.inr g)
      · rw [g]; exact shrRight_of hfw
      · exact Or.inl ⟨g, g0, g1⟩
    · rintro ⟨a, _, b | ⟨b, c, _⟩⟩
      · exact hf ⟨a, b⟩
      · exact hc ⟨a, by omega, c⟩
  · have hc : R.signed = false ∧ U.lo < 0 ∧ T.lo = 0 := by
      by_contra h; exact hc h
    obtain ⟨hs, h1, h0⟩ := hc
    have hd := ITy.digits_unsigned hs
    rw [run, shr_overlooked hR hT hU hs i2 h0 h1 e]
    by_cases hb : (R.digits : Int) < U.hi
    · rw [decide_eq_true hb, if_pos rfl, checkedShr_throw hR hp hi hT ht hU hu]
      refine iff_of_true (shrRight_of hfw) ?_
      rintro ⟨_, _, b | ⟨_, _, b⟩⟩
      · exact hf ⟨hs, b⟩
      · omega
    · rw [decide_eq_false hb, if_neg (by decide)]
      have quiet := plainShr_quiet R t u
      rcases Int.lt_or_le u 0 with hn | hn
      · refine iff_of_false ?_ (fun g => g ⟨hs, hrej, Or.inr ⟨hn, h0, by omega⟩⟩)
        rintro (⟨_, g, _⟩ | ⟨e, g⟩ | g)
        · omega
        · exact quiet.1 e g
        · exact quiet.2 g
      · have hne : u ≠ R.bits := fun g => hf ⟨hs, g⟩
        have iu : R.In u := ⟨by have := R.min_nonpos; omega, by have := (in_digits R).2; omega⟩
        refine iff_of_true (Or.inl ⟨plainShr it iu (by omega) hn (by rw [hl]; omega), hn, by omega⟩) ?_
        rintro ⟨_, _, b | ⟨b, _, _⟩⟩
        · exact hf ⟨hs, b⟩
        · omega

private theorem promote_uac (T U : ITy) : promote (uac T U) = uac T U := by
  have h1 := promote_lg' T
  have h2 : (promote T).lg ≤ (uac T U).lg := by
    rw [← uac_promote_left]; exact uac_lg_left _ _
  unfold promote
  rw [if_neg (by omega)]

/-- C76 for `%`: exact (and then the divisor is not zero), an exception, or a program that does not compile - if and only if
the operands are not those of `RemWrong`. -/
theorem C76_mod (p : EP) (hp : p.ae = .throw) (T U : Opd) (hT : T.Wf) (hU : U.Wf) (t u : Int) (ht : T.Has t) (hu : U.Has u) :
    RemRight (arith .native p .mod T U t u) t u ↔ ¬ RemWrong (uac T.base U.base) U t u := by
  have hR := uac_ok hT.1 hU.1
  have t1 := ht.1; have t2 := ht.2; have u1 := hu.1; have u2 := hu.2
  by_cases hx : (uac T.base U.base).signed = true ∧ t = (uac T.base U.base).min ∧
      (u = (uac T.base U.base).min ∨ (u = -1 ∧ U.hi < 0))
  swap
  · refine iff_of_true ?_ ?_
    · obtain ⟨h1, h2, _⟩ := C25_native_partial p hp T U hT hU t u ht hu fun a b =>
        ⟨fun c => hx ⟨a, b, Or.inl c⟩, fun c => ⟨by omega, by by_contra hc; exact hx ⟨a, b, Or.inr ⟨c, by omega⟩⟩⟩⟩
      rcases h1 with h1 | h1
      · exact Or.inl ⟨h1, fun h0 => h2 h0 _ h1⟩
      · exact Or.inr h1
    · rintro ⟨a, b, ⟨c, _⟩ | c⟩
      · exact hx ⟨a, b, Or.inl c⟩
      · exact hx ⟨a, b, Or.inr c⟩
  obtain ⟨hs, htm, hum⟩ := hx
  obtain ⟨fT, fU⟩ := native_fits hT hU
  have fT1 := fT.1; have fT2 := fT.2 hs; have fU1 := fU.1; have fU2 := fU.2 hs
  have etb := tempBase_self hR (T := T) (U := U) (uac_digits_left _ _) (uac_digits_right _ _)
  have hpu := promote_uac T.base U.base
  show RemRight (runMod p (uac T.base U.base) T U t u) t u ↔ _
  generalize uac T.base U.base = R at *
  have hm := R.max_ge
  have e := ITy.min_eq R
  rw [hs, if_pos rfl] at e
  have it : R.In t := ⟨by omega, by omega⟩
  have iu : R.In u := ⟨by omega, by omega⟩
  have hu0 : u ≠ 0 := by omega
  rcases Int.lt_or_le U.hi 0 with hn | hn
  · obtain ⟨ri, er, hex⟩ := mod_accept (R := R) hT hU fun t' u' ht' hu' => by
      have a1 := ht'.1; have a2 := ht'.2; have b1 := hu'.1; have b2 := hu'.2
      have it' : R.In t' := ⟨by omega, by omega⟩
      exact ⟨by omega, it', ⟨by omega, by omega⟩, tmod_in it'⟩
    have run : runMod p R T U t u = (cMod R R t u >>= fun v => Out.ret (conv R v)) := by
      unfold runMod runDivMod
      rw [er, castItv_eq hU]
      simp only [Out.ret_bind, hex]
      rw [conv_of_in it, conv_of_in iu]
      rfl
    rw [run]
    by_cases hu1 : u = -1
    · refine iff_of_false ?_ (fun g => g ⟨hs, htm, Or.inr ⟨hu1, hn⟩⟩)
      have : cMod R R t u = .fault .ub := by
        unfold cMod
        dsimp only
        rw [uac_self, hpu, conv_of_in it, conv_of_in iu, if_neg hu0, if_pos]
        refine ⟨hs, fun g => ?_⟩
        have := g.2
        rw [hu1, Int.tdiv_neg, Int.tdiv_one] at this
        omega
      rw [this]
      rintro (⟨g, _⟩ | ⟨e, g⟩ | g) <;> cases g
    · have hum : u = R.min := by rcases hum with h | h; exact h; exact absurd h.1 hu1
      refine iff_of_true (Or.inl ⟨?_, hu0⟩) ?_
      · have one : t.tdiv u = 1 := by rw [hum, htm]; exact Int.tdiv_self (by omega)
        rw [cMod_eq (in_uac_self it) (in_uac_self iu) hu0 (fun _ => by rw [one]; exact in_uac_self R.in_one), Out.ret_bind,
          conv_of_in (tmod_in it)]
      · rintro ⟨_, _, ⟨_, b⟩ | ⟨b, _⟩⟩
        · omega
        · exact hu1 b
  · have hum : u = R.min := by rcases hum with h | h; exact h; omega
    refine iff_of_false ?_ (fun g => g ⟨hs, htm, Or.inl ⟨hum, hn⟩⟩)
    have hex : modExc R T U = true := modExc_zero (by omega) hn
    have run : runMod p R T U t u = .ret t := by
      obtain ⟨ri, er, pl, pu, _⟩ := modItv_total (R := R) (t := ⟨castTo R T.lo, castTo R T.hi⟩)
        (u := ⟨castTo R U.lo, castTo R U.hi⟩) castTo_proper castTo_proper castTo_proper castTo_proper
      have hx : modExc R T U = divExcPossible R ⟨castTo R U.lo, castTo R U.hi⟩ ri := by unfold modExc; rw [er]
      have hlit := litsOk_value hT hU ht hu it iu
      have htrap : p.ae ≠ .trap := by rw [hp]; decide
      unfold runMod runDivMod
      rw [resItv_of hT hU er, castItv_eq hU]
      simp only [Out.ret_bind]
      rw [← hx, if_pos hex, etb]
      simp only [Out.ret_bind]
      rw [castStatics hT hU, traps_mod, if_pos ⟨hlit, htrap⟩, castingHelper_throw hp hT ht hU hu hlit.1 hlit.2,
        castTo_of_in it, castTo_of_in iu]
      simp only [htrap, decide_false, Bool.false_eq_true, if_false, orThrow, Out.ret_bind]
      rw [modulus_eq it iu, if_neg hu0, if_pos ⟨hs, htm, hum⟩]
      show Out.ret (conv R t) = _
      rw [conv_of_in it]
    rw [run]
    rintro (⟨g, _⟩ | ⟨e, g⟩ | g)
    · have g := Out.ret.inj g
      rw [hum, htm, Int.tmod_self] at g
      omega
    · cases g
    · cases g

/-- C76 for `/`, with any promotion policy: the quotient (and then the divisor is not zero), an exception, or a program that does not
compile - if and only if the operands are not those of `QuotWrong`. -/
theorem C76_div (pp : PP) (hpp : pp.Wf) (p : EP) (hp : p.ae = .throw) (T U : Opd) (hT : T.Wf) (hU : U.Wf) (R : ITy)
    (hres : pp.result .div T U = .ret R) (t u : Int) (ht : T.Has t) (hu : U.Has u) :
    QuotRight (arith pp p .div T U t u) t u ↔ ¬ QuotWrong R T U t u := by
  have hR : R.Ok := by
    rcases PP.result_total hpp (op := .div) (by decide) hT hU with ⟨R', e, h⟩ | e
    · rw [hres] at e; cases e; exact h
    · rw [hres] at e; cases e
  have e : arith pp p .div T U t u = runDiv p R T U t u := by
    unfold arith
    rw [show Arith.div.binOp = .div from rfl, hres, Out.ret_bind]; rfl
  rw [e]
  exact runDiv_exact hp hR hT hU ht hu

/-- C76 for `%`, with any promotion policy: the remainder (and then the divisor is not zero), an exception, or a program that does
not compile - if and only if the operands are not those of `ModWrong`. -/
theorem C76_rem (pp : PP) (hpp : pp.Wf) (p : EP) (hp : p.ae = .throw) (T U : Opd) (hT : T.Wf) (hU : U.Wf) (R : ITy)
    (hres : pp.result .mod T U = .ret R) (t u : Int) (ht : T.Has t) (hu : U.Has u) :
    RemRight (arith pp p .mod T U t u) t u ↔ ¬ ModWrong R T U t u := by
  have hR : R.Ok := by
    rcases PP.result_total hpp (op := .mod) (by decide) hT hU with ⟨R', e, h⟩ | e
    · rw [hres] at e; cases e; exact h
    · rw [hres] at e; cases e
  have e : arith pp p .mod T U t u = runMod p R T U t u := by
    unfold arith
    rw [show Arith.mod.binOp = .mod from rfl, hres, Out.ret_bind]; rfl
  rw [e]
  exact runMod_exact hp hR hT hU ht hu

/-- With native promotion the two descriptions of the remainders that go wrong agree. -/
theorem C76_agree (T U : Opd) (hT : T.Wf) (hU : U.Wf) (t u : Int) (ht : T.Has t) (hu : U.Has u) :
    ModWrong (uac T.base U.base) T U t u ↔ RemWrong (uac T.base U.base) U t u :=
  not_iff_not.1 ((C76_rem .native trivial strictException rfl T U hT hU _ rfl t u ht hu).symm.trans
    (C76_mod strictException rfl T U hT hU t u ht hu))

/-- C76 for `<<`, with any promotion policy: the shifted value (and then the count is not negative), an exception, or a program that
does not compile - if and only if the operands are not those of `LeftWrong`. -/
theorem C76_left (pp : PP) (hpp : pp.Wf) (p : EP) (hp : p.ae = .throw) (hi : p.idb = .throw) (T U : Opd) (hT : T.Wf) (hU : U.Wf)
    (R : ITy) (hres : pp.result .shl T U = .ret R) (t u : Int) (ht : T.Has t) (hu : U.Has u) :
    ShlRight (shl pp p T U t u) t u ↔ ¬ LeftWrong R T U t u := by
  have hR : R.Ok := by
    rcases PP.result_shift hpp (op := .shl) (by decide) hT hU with ⟨R', e, h⟩ | e
    · rw [hres] at e; cases e; exact h
    · rw [hres] at e; cases e
  have e : shl pp p T U t u = runOp opShl p R T U t u := by
    unfold shl
    rw [hres, Out.ret_bind]
  rw [e]
  exact runShl_exact hp hi hR hT hU ht hu

/-- C76 for `>>`, with any promotion policy: the shifted value (and then neither operand is negative), an exception, or a program
that does not compile - if and only if the operands are not those of `RightWrong`. -/
theorem C76_right (pp : PP) (hpp : pp.Wf) (p : EP) (hp : p.ae = .throw) (hi : p.idb = .throw) (T U : Opd) (hT : T.Wf) (hU : U.Wf)
    (R : ITy) (hres : pp.result .shr T U = .ret R) (t u : Int) (ht : T.Has t) (hu : U.Has u) :
    ShrRight (shr pp p T U t u) t u ↔ ¬ RightWrong R T U t u := by
  have hR : R.Ok := by
    rcases PP.result_shift hpp (op := .shr) (by decide) hT hU with ⟨R', e, h⟩ | e
    · rw [hres] at e; cases e; exact h
    · rw [hres] at e; cases e
  have e : shr pp p T U t u = runShr p R T U t u := by
    unfold shr
    rw [hres, Out.ret_bind]
  rw [e]
  exact runShr_exact hp hi hR hT hU ht hu

/-- With native promotion the two descriptions of the shifts that go wrong agree. -/
theorem C76_agree_shift (T U : Opd) (hT : T.Wf) (hU : U.Wf) (t u : Int) (ht : T.Has t) (hu : U.Has u) :
    (LeftWrong (promote T.base) T U t u ↔ ShlWrong (promote T.base) T U t u) ∧
    (RightWrong (promote T.base) T U t u ↔ ShrWrong (promote T.base) T U u) :=
  ⟨not_iff_not.1 ((C76_left .native trivial strictException rfl rfl T U hT hU _ rfl t u ht hu).symm.trans
    (C76_shl strictException rfl rfl T U hT hU t u ht hu)),
   not_iff_not.1 ((C76_right .native trivial strictException rfl rfl T U hT hU _ rfl t u ht hu).symm.trans
    (C76_shr strictException rfl rfl T U hT hU t u ht hu))⟩

end

section
attribute [local instance] lp64

/-! wrong and right results: `-1 << 0`, `63 << -1`, and (in `unsigned int`) `9 << -4294967294`, where the wrapped count 2 gives
a wrong value -/
example : ShlWrong i32 (Opd.range i32 (-5) 5) (Opd.range i32 0 3) (-1) 0 ∧
    shl .native strictException (Opd.range i32 (-5) 5) (Opd.range i32 0 3) (-1) 0 = .fault .ub ∧
    ShlWrong i32 (Opd.range i32 0 63) (Opd.range i32 (-1) 1) 63 (-1) ∧
    ShlWrong u32 (Opd.range u32 0 63) (Opd.range i64 (-4294967296) 3) 9 (-4294967294) ∧
    shl .native strictException (Opd.range u32 0 63) (Opd.range i64 (-4294967296) 3) 9 (-4294967294) = .ret 36 ∧
    ¬ ShlWrong u32 (Opd.range u32 0 63) (Opd.range i64 (-4294967296) 3) 9 2 ∧
    shl .native strictException (Opd.range u32 0 63) (Opd.range i64 (-4294967296) 3) 9 2 = .ret 36 := by decide +kernel

example : ShrWrong u32 (Opd.ofSafe u32) (Opd.range i32 0 33) 32 ∧
    shr .native strictException (Opd.ofSafe u32) (Opd.range i32 0 33) 7 32 = .fault .ub ∧
    ShrRejected u32 (Opd.ofSafe u32) (Opd.range i32 0 32) ∧
    shr .native strictException (Opd.ofSafe u32) (Opd.range i32 0 32) 7 3 = .fault .illFormed ∧
    ShrWrong u32 (Opd.ofSafe u32) (Opd.range i64 (-4294967296) 3) (-4294967294) ∧
    shr .native strictException (Opd.ofSafe u32) (Opd.range i64 (-4294967296) 3) 36 (-4294967294) = .ret 9 ∧
    ¬ ShrWrong u32 (Opd.ofSafe u32) (Opd.range i64 (-4294967296) 33) (-4294967294) ∧
    shr .native strictException (Opd.ofSafe u32) (Opd.range i64 (-4294967296) 33) 36 (-4294967294) = .thrown .domain_error := by
  decide +kernel

example : RemWrong i32 (Opd.ofSafe i32) (-2147483648) (-2147483648) ∧
    arith .native strictException .mod (Opd.ofSafe i32) (Opd.ofSafe i32) (-2147483648) (-2147483648) = .ret (-2147483648) ∧
    RemWrong i32 (Opd.range i32 (-5) (-1)) (-2147483648) (-1) ∧
    arith .native strictException .mod (Opd.ofSafe i32) (Opd.range i32 (-5) (-1)) (-2147483648) (-1) = .fault .ub ∧
    ¬ RemWrong i32 (Opd.ofSafe i32) (-2147483648) (-1) ∧
    arith .native strictException .mod (Opd.ofSafe i32) (Opd.ofSafe i32) (-2147483648) (-1) = .ret 0 := by decide +kernel

/-! quotients of `safe_unsigned_range<0, 100000>` by `safe_unsigned_range<50000, 60000>` have type `unsigned char` under automatic
promotion, and the operands are converted to it without a check: `60000 / 50177` becomes `96 / 1` -/
example : PP.automatic.result .div (Opd.range u32 0 100000) (Opd.range u32 50000 60000) = .ret u8 ∧
    DivUnchecked u8 (Opd.range u32 0 100000) (Opd.range u32 50000 60000) ∧
    QuotWrong u8 (Opd.range u32 0 100000) (Opd.range u32 50000 60000) 60000 50177 ∧
    arith .automatic strictException .div (Opd.range u32 0 100000) (Opd.range u32 50000 60000) 60000 50177 = .ret 96 ∧
    QuotWrong u8 (Opd.range u32 0 100000) (Opd.range u32 50000 60000) 60000 50176 ∧
    arith .automatic strictException .div (Opd.range u32 0 100000) (Opd.range u32 50000 60000) 60000 50176 = .fault .ub ∧
    ¬ QuotWrong u8 (Opd.range u32 0 100000) (Opd.range u32 50000 60000) 60000 50000 ∧
    arith .automatic strictException .div (Opd.range u32 0 100000) (Opd.range u32 50000 60000) 60000 50000 = .ret 1 := by
  decide +kernel

/-! remainders under automatic promotion: without a check (`50000 % 100000` is 80, `7 % 65536` undefined) and with it
(`599 % 300` is 43), where `304 % 300` is right -/
example : PP.automatic.result .mod (Opd.range u32 0 100000) (Opd.range u32 100000 100000) = .ret u8 ∧
    ModWrong u8 (Opd.range u32 0 100000) (Opd.range u32 100000 100000) 50000 100000 ∧
    arith .automatic strictException .mod (Opd.range u32 0 100000) (Opd.range u32 100000 100000) 50000 100000 = .ret 80 ∧
    PP.automatic.result .mod (Opd.range u32 0 100000) (Opd.range u32 65536 65536) = .ret u8 ∧
    ModWrong u8 (Opd.range u32 0 100000) (Opd.range u32 65536 65536) 7 65536 ∧
    arith .automatic strictException .mod (Opd.range u32 0 100000) (Opd.range u32 65536 65536) 7 65536 = .fault .ub ∧
    PP.automatic.result .mod (Opd.range u32 300 600) (Opd.range u32 300 300) = .ret u8 ∧
    ¬ ModUnchecked u8 (Opd.range u32 300 600) (Opd.range u32 300 300) ∧
    ModWrong u8 (Opd.range u32 300 600) (Opd.range u32 300 300) 599 300 ∧
    arith .automatic strictException .mod (Opd.range u32 300 600) (Opd.range u32 300 300) 599 300 = .ret 43 ∧
    ¬ ModWrong u8 (Opd.range u32 300 600) (Opd.range u32 300 300) 304 300 ∧
    arith .automatic strictException .mod (Opd.range u32 300 600) (Opd.range u32 300 300) 304 300 = .ret 4 := by
  decide +kernel

/-! Shifts under automatic promotion. `safe_unsigned_range<0, 1000>` shifted by -5 to -1 has type `unsigned char`, no check is made;
`7 << -253` becomes `7 << 3`, `100 >> -254` becomes `100 >> 2`. A zero may be shifted by 256, whose conversion to
`signed char` is zero, but not by 255, whose conversion is -1. -/
example : PP.automatic.result .shl (Opd.range u32 0 1000) (Opd.range i32 (-5) (-1)) = .ret u8 ∧
    LeftWrong u8 (Opd.range u32 0 1000) (Opd.range i32 (-5) (-1)) 1000 (-1) ∧
    shl .automatic strictException (Opd.range u32 0 1000) (Opd.range i32 (-5) (-1)) 1000 (-1) = .fault .ub ∧
    PP.automatic.result .shl (Opd.range u8 0 7) (Opd.range i32 (-300) 3) = .ret u8 ∧
    LeftWrong u8 (Opd.range u8 0 7) (Opd.range i32 (-300) 3) 7 (-253) ∧
    shl .automatic strictException (Opd.range u8 0 7) (Opd.range i32 (-300) 3) 7 (-253) = .ret 56 ∧
    ¬ LeftWrong u8 (Opd.range u8 0 7) (Opd.range i32 (-300) 3) 7 3 ∧
    PP.automatic.result .shl (Opd.range i32 0 0) (Opd.range i32 0 300) = .ret i8 ∧
    LeftWrong i8 (Opd.range i32 0 0) (Opd.range i32 0 300) 0 255 ∧
    shl .automatic strictException (Opd.range i32 0 0) (Opd.range i32 0 300) 0 255 = .fault .ub ∧
    ¬ LeftWrong i8 (Opd.range i32 0 0) (Opd.range i32 0 300) 0 256 ∧
    shl .automatic strictException (Opd.range i32 0 0) (Opd.range i32 0 300) 0 256 = .ret 0 := by decide +kernel

example : PP.automatic.result .shr (Opd.range u8 0 100) (Opd.range i32 (-256) 4) = .ret u8 ∧
    RightWrong u8 (Opd.range u8 0 100) (Opd.range i32 (-256) 4) 100 (-254) ∧
    shr .automatic strictException (Opd.range u8 0 100) (Opd.range i32 (-256) 4) 100 (-254) = .ret 25 ∧
    ¬ RightWrong u8 (Opd.range u8 0 100) (Opd.range i32 (-256) 4) 100 2 ∧
    PP.automatic.result .shr (Opd.ofSafe u32) (Opd.range i32 0 65) = .ret u32 ∧
    RightWrong u32 (Opd.ofSafe u32) (Opd.range i32 0 65) 100 32 ∧
    shr .automatic strictException (Opd.ofSafe u32) (Opd.range i32 0 65) 100 32 = .fault .ub := by decide +kernel

end
end Verif.Props
