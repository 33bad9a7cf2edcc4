import Verif.Proofs.Tight
import Verif.Props.Bitwise
import Verif.Props.Shift
import Verif.Props.TrapIff

/-!
Property C77: the types of results are as narrow as the operands allow, and their base type is the one the promotion
policy promises.
-/

namespace Verif.Props
open Spec
section
variable [Arch]

omit [Arch] in
private theorem ret_bind {α β : Type} (a : α) (f : α → Out β) : (Out.ret a >>= f) = f a := rfl

/-- C77 for `+`, `-`, `*`: if the type `R` chosen by the promotion policy represents the ends of the operand ranges, the
result type is bounded by the least and the greatest exact result (by the limits of `R` where `R` does not represent
them). -/
theorem C77_arith (pp : PP) (hpp : pp.Wf) (o : Arith) (ho : o = .add ∨ o = .sub ∨ o = .mul) (T U : Opd) (hT : T.Wf)
    (hU : U.Wf) (R : ITy) (hres : pp.result o.binOp T U = .ret R) (i1 : R.In T.lo) (i2 : R.In T.hi) (i3 : R.In U.lo)
    (i4 : R.In U.hi) : ∃ S, arithTy pp o T U = .ret S ∧ TightFor R (math o) T U S := by
  have hR : R.Ok := by
    rcases PP.result_total hpp (op := o.binOp) (by rcases ho with rfl | rfl | rfl <;> decide) hT hU with ⟨R', e, hR⟩ | e
    · rw [hres] at e; cases e; exact hR
    · rw [hres] at e; cases e
  unfold arithTy
  rw [hres, ret_bind]
  rcases ho with rfl | rfl | rfl
  · obtain ⟨m, M, e, h1, h2⟩ := add_tight hT hU i1 i2 i3 i4
    exact tight_of e h1 h2
  · obtain ⟨m, M, e, h1, h2⟩ := sub_tight hT hU i1 i2 i3 i4
    exact tight_of e h1 h2
  · obtain ⟨m, M, e, h1, h2⟩ := mul_tight hR hT hU i1 i2 i3 i4
    exact tight_of e h1 h2

/-- C77 for `/` when the divisor range excludes zero. -/
theorem C77_div (pp : PP) (T U : Opd) (hT : T.Wf) (hU : U.Wf) (R : ITy) (hres : pp.result .div T U = .ret R)
    (i1 : R.In T.lo) (i2 : R.In T.hi) (i3 : R.In U.lo) (i4 : R.In U.hi) (h0 : U.hi < 0 ∨ 0 < U.lo) :
    ∃ S, arithTy pp .div T U = .ret S ∧ TightFor R (math .div) T U S := by
  unfold arithTy
  rw [show Arith.binOp .div = .div from rfl, hres, ret_bind]
  obtain ⟨m, M, e, h1, h2⟩ := div_tight hT hU i1 i2 i3 i4 h0
  exact tight_of e h1 h2

/-- `t << u` as a number -/
private theorem scale_pos {t u : Int} (hu : 0 ≤ u) : scale t u = t * 2 ^ u.toNat := by
  unfold scale; rw [if_pos hu]

omit [Arch] in
private theorem scale_right {t u : Int} (ht : 0 ≤ t) (hu : 0 ≤ u) : scale t (-u) = t / 2 ^ u.toNat := by
  unfold scale
  split_ifs with h
  · have : u = 0 := by omega
    subst this; simp
  · rw [Int.neg_neg, Int.tdiv_eq_ediv_of_nonneg ht]

/-- C77 for `<<` when values and counts are not negative. -/
theorem C77_shl (pp : PP) (hpp : pp.Wf) (T U : Opd) (hT : T.Wf) (hU : U.Wf) (R : ITy) (hres : pp.result .shl T U = .ret R)
    (h1 : 0 ≤ T.lo) (h2 : 0 ≤ U.lo) (i2 : R.In T.hi) :
    ∃ S, shlTy pp T U = .ret S ∧ TightFor R (fun t u => t * 2 ^ u.toNat) T U S := by
  have hR : R.Ok := by
    rcases PP.result_shift hpp (op := .shl) (Or.inl rfl) hT hU with ⟨R', e, hR⟩ | e
    · rw [hres] at e; cases e; exact hR
    · rw [hres] at e; cases e
  unfold shlTy
  rw [hres, ret_bind]
  obtain ⟨m, M, e, g1, g2⟩ := shl_tight hR hT hU i2 h1 h2
  have hc : ∀ t u, T.Has t → U.Has u → scale t u = t * 2 ^ u.toNat := fun t u _ hu =>
    scale_pos (by have := hu.1; omega)
  exact tight_of e (Least.congr hc g1) (Greatest.congr hc g2)

omit [Arch] in
private theorem shr_extremes [Arch] {T U : Opd} (hT : T.Wf) (hU : U.Wf) (h1 : 0 ≤ T.lo) (h2 : 0 ≤ U.hi) :
    Least (fun t u => t / 2 ^ u.toNat) T U (scale T.lo (-U.hi)) ∧
    Greatest (fun t u => t / 2 ^ u.toNat) T U (scale T.hi (-(U.lo.toNat : Int))) := by
  have hle := hT.2.2.2.1; have hleU := hU.2.2.2.1
  have key : ∀ t u : Int, 0 ≤ t → t / 2 ^ u.toNat = scale t (-(u.toNat : Int)) := fun t u ht => by
    rw [scale_right ht (by omega), Int.toNat_natCast]
  refine ⟨⟨⟨_, _, hT.has_lo, hU.has_hi, (scale_right h1 h2).symm⟩, fun t u ht hu => ?_⟩,
    ⟨⟨_, _, hT.has_hi, hU.has_lo, key _ _ (by omega)⟩, fun t u ht hu => ?_⟩⟩
  · have a1 := ht.1; have a2 := hu.2
    dsimp only
    rw [key _ _ (by omega)]
    exact scale_mono h1 a1 (by omega)
  · have a1 := ht.1; have a2 := hu.1
    dsimp only
    rw [key _ _ (by omega)]
    exact scale_mono (by omega) ht.2 (by omega)

/-- C77 for `>>` when values and counts are not negative and no end of the range of counts is the full width of an
unsigned type (otherwise the program does not compile, C76). -/
theorem C77_shr (pp : PP) (hpp : pp.Wf) (T U : Opd) (hT : T.Wf) (hU : U.Wf) (R : ITy) (hres : pp.result .shr T U = .ret R)
    (h1 : 0 ≤ T.lo) (h2 : 0 ≤ U.lo) (i2 : R.In T.hi) (hw : R.signed = true ∨ (U.lo ≠ R.bits ∧ U.hi ≠ R.bits)) :
    ∃ S, shrTy pp T U = .ret S ∧ TightFor R (fun t u => t / 2 ^ u.toNat) T U S := by
  have hle := hT.2.2.2.1; have hleU := hU.2.2.2.1
  have hR : R.Ok := by
    rcases PP.result_shift hpp (op := .shr) (Or.inr rfl) hT hU with ⟨R', e, hR⟩ | e
    · rw [hres] at e; cases e; exact hR
    · rw [hres] at e; cases e
  unfold shrTy
  rw [hres, ret_bind]
  obtain ⟨g1, g2⟩ := shr_extremes hT hU h1 (by omega)
  rw [Int.toNat_of_nonneg h2] at g2
  refine tight_of (resItv_of hT hU (shr_tight hR hT hleU i2 h1 h2 fun a b _ hb g => ?_)) g1 g2
  have g1 := g.1; have := g.2.2.1
  rcases hw with hw | hw
  · rw [hw] at g1; cases g1
  · rcases hb with rfl | rfl <;> omega

/-! ### automatic promotion -/

/-- Automatic promotion of `+`, `-`, `*`: when the widest type represents the ends of both operand ranges and every result,
the chosen type is the smallest of its signedness that represents every result. -/
theorem C77_automatic (o : Arith) (ho : o = .add ∨ o = .sub ∨ o = .mul) (T U : Opd) (hT : T.Wf) (hU : U.Wf) (B : ITy)
    (hB : B = if o ≠ .sub ∧ T.base.signed = false ∧ U.base.signed = false then tUIntMax else tIntMax)
    (i1 : B.In T.lo) (i2 : B.In T.hi) (i3 : B.In U.lo) (i4 : B.In U.hi)
    (hall : ∀ t u, T.Has t → U.Has u → B.In (math o t u)) :
    ∃ R, PP.automatic.result o.binOp T U = .ret R ∧ R.Ok ∧ R.signed = B.signed ∧ SmallestFor R (math o) T U := by
  rcases ho with rfl | rfl | rfl
  · have e0 : B = autoTemp T U := by rw [hB]; simp [autoTemp]
    subst e0
    obtain ⟨m, M, e, h1, h2⟩ := add_tight hT hU i1 i2 i3 i4
    obtain ⟨R, e', h⟩ := smallest_of (autoTemp_cases T U) h1 h2 hall
    refine ⟨R, ?_, h⟩
    show (do autoEnds (autoTemp T U) (← resItv itvAdd (autoTemp T U) T U)) = _
    rw [e, ret_bind, e']
  · have e0 : B = tIntMax := by rw [hB]; simp
    subst e0
    obtain ⟨m, M, e, h1, h2⟩ := sub_tight hT hU i1 i2 i3 i4
    obtain ⟨R, e', h⟩ := smallest_of (Or.inl rfl) h1 h2 hall
    refine ⟨R, ?_, h⟩
    show (do autoEnds tIntMax (← resItv itvSub tIntMax T U)) = _
    rw [e, ret_bind, e']
  · have e0 : B = autoTemp T U := by rw [hB]; simp [autoTemp]
    subst e0
    obtain ⟨m, M, e, h1, h2⟩ := mul_tight (autoTemp_ok T U) hT hU i1 i2 i3 i4
    obtain ⟨R, e', h⟩ := smallest_of (autoTemp_cases T U) h1 h2 hall
    refine ⟨R, ?_, h⟩
    show (do autoEnds (autoTemp T U) (← resItv itvMul (autoTemp T U) T U)) = _
    rw [e, ret_bind, e']

/-- Automatic promotion of `/` when the divisor range excludes zero. -/
theorem C77_automatic_div (T U : Opd) (hT : T.Wf) (hU : U.Wf) (B : ITy)
    (hB : B = if T.base.signed = false ∧ U.base.signed = false then tUIntMax else tIntMax)
    (i1 : B.In T.lo) (i2 : B.In T.hi) (i3 : B.In U.lo) (i4 : B.In U.hi) (h0 : U.hi < 0 ∨ 0 < U.lo)
    (hall : ∀ t u, T.Has t → U.Has u → B.In (t.tdiv u)) :
    ∃ R, PP.automatic.result .div T U = .ret R ∧ R.Ok ∧ R.signed = B.signed ∧ SmallestFor R Int.tdiv T U := by
  have e0 : B = autoTemp T U := hB
  subst e0
  obtain ⟨m, M, e, h1, h2⟩ := div_tight hT hU i1 i2 i3 i4 h0
  obtain ⟨R, e', h⟩ := smallest_of (autoTemp_cases T U) h1 h2 hall
  refine ⟨R, ?_, h⟩
  show (do autoEnds (autoTemp T U) (← resItv divItv (autoTemp T U) T U)) = _
  rw [e, ret_bind, e']

private theorem shiftTemp_cases (T : Opd) : autoShiftTemp T = tIntMax ∨ autoShiftTemp T = tUIntMax := by
  unfold autoShiftTemp; split
  · exact Or.inl rfl
  · exact Or.inr rfl

private theorem shiftTemp_in {T : Opd} (hT : T.Wf) {x : Int} (h : T.base.In x) : (autoShiftTemp T).In x := by
  have hk := hT.1
  unfold autoShiftTemp
  split
  · rename_i hs; exact h.widen (by rw [hs]; rfl) hk
  · rename_i hs; exact h.widen (by simp at hs; rw [hs]; rfl) hk

private theorem shiftTemp_ok (T : Opd) : (autoShiftTemp T).Ok := by
  rcases shiftTemp_cases T with e | e <;> rw [e] <;> exact Nat.le_refl _

/-- Automatic promotion of `<<` for values and counts that are not negative: when the widest type of the signedness of
the left operand represents every result, the chosen type is the smallest that does. -/
theorem C77_automatic_shl (T U : Opd) (hT : T.Wf) (hU : U.Wf) (h1 : 0 ≤ T.lo) (h2 : 0 ≤ U.lo)
    (hall : ∀ t u, T.Has t → U.Has u → (if T.base.signed then tIntMax else tUIntMax).In (t * 2 ^ u.toNat)) :
    ∃ R, PP.automatic.result .shl T U = .ret R ∧ R.Ok ∧ R.signed = T.base.signed ∧
      SmallestFor R (fun t u => t * 2 ^ u.toNat) T U := by
  obtain ⟨m, M, e, g1, g2⟩ := shl_tight (shiftTemp_ok T) hT hU (shiftTemp_in hT hT.2.2.1) h1 h2
  have hc : ∀ t u, T.Has t → U.Has u → scale t u = t * 2 ^ u.toNat := fun t u _ hu =>
    scale_pos (by have := hu.1; omega)
  obtain ⟨R, e', hR, hs, h⟩ := smallest_of (shiftTemp_cases T) (Least.congr hc g1) (Greatest.congr hc g2) hall
  refine ⟨R, ?_, hR, ?_, h⟩
  · show (do autoEnds (autoShiftTemp T) (← resItv itvShl (autoShiftTemp T) T U)) = _
    rw [e, ret_bind, e']
  · rw [hs]; unfold autoShiftTemp; cases T.base.signed <;> rfl

/-- Automatic promotion of `>>` for values that are not negative: the chosen type is the smallest that represents the value
shifted by any count that is not negative (negative counts are possible only for an unsigned left operand; the
smallest count must fit in the widest signed type). -/
theorem C77_automatic_shr (T U : Opd) (hT : T.Wf) (hU : U.Wf) (h1 : 0 ≤ T.lo) (h2 : 0 ≤ U.lo ∨ T.base.signed = false)
    (h3 : 0 ≤ U.hi) (h4 : U.lo ≤ tIntMax.max) (hw : T.base.signed = true ∨ (U.lo ≠ tUIntMax.bits ∧ U.hi ≠ tUIntMax.bits)) :
    ∃ R, PP.automatic.result .shr T U = .ret R ∧ R.Ok ∧ R.signed = T.base.signed ∧
      SmallestFor R (fun t u => t / 2 ^ u.toNat) T U := by
  have hle := hT.2.2.2.1; have hleU := hU.2.2.2.1
  have i2 := shiftTemp_in hT hT.2.2.1
  obtain ⟨g1, g2⟩ := shr_extremes hT hU h1 h3
  have hall : ∀ t u, T.Has t → U.Has u → (autoShiftTemp T).In (t / 2 ^ u.toNat) := fun t u ht hu => by
    have a1 := ht.1; have a2 := ht.2; have := i2.2; have := (autoShiftTemp T).min_nonpos
    have p : (0 : Int) < 2 ^ u.toNat := Int.pow_pos (by decide)
    have := Int.ediv_nonneg (show 0 ≤ t by omega) (Int.le_of_lt p)
    have := Int.ediv_le_self (2 ^ u.toNat) (show 0 ≤ t by omega)
    exact ⟨by omega, by omega⟩
  obtain ⟨R, e', hR, hs, h⟩ := smallest_of (shiftTemp_cases T) g1 g2 hall
  have hsig : (autoShiftTemp T).signed = T.base.signed := by unfold autoShiftTemp; cases T.base.signed <;> rfl
  refine ⟨R, ?_, hR, hs.trans hsig, h⟩
  have hbits : (autoShiftTemp T).bits = tUIntMax.bits := by rcases shiftTemp_cases T with e | e <;> rw [e] <;> rfl
  have key := shr_tight (c := U.lo.toNat) (d := U.hi) (shiftTemp_ok T) hT (by omega) i2 h1 (by omega)
    (fun a b _ hb g => by
      have g1 := g.1; have g2 := g.2.2.1
      rw [hsig] at g1
      rw [hbits] at g2
      have := tUIntMax.bits_pos
      rcases hw with hw | hw
      · rw [hw] at g1; cases g1
      · rcases hb with rfl | rfl <;> omega)
  show autoShr T U = _
  unfold autoShr
  dsimp only
  rw [castItv_eq hT, ret_bind, castItv_eq hU, ret_bind]
  dsimp only
  have hl : (if (castTo (autoShiftTemp T) U.lo).exception = true then CR.ok 0 else castTo (autoShiftTemp T) U.lo) =
      castTo (autoShiftTemp T) (U.lo.toNat : Int) := by
    have hm : U.lo ≤ (autoShiftTemp T).max := by
      rcases shiftTemp_cases T with e | e <;> rw [e]
      · exact h4
      · exact Int.le_trans h4 (by
          have := pow_le_pow_right₀ (show (1 : Int) ≤ 2 by decide) (show tIntMax.digits ≤ tUIntMax.digits by
            unfold ITy.digits tIntMax tUIntMax ITy.bits; simp)
          unfold ITy.max; omega)
    rcases castTo_cases (autoShiftTemp T) U.lo with ⟨c, i⟩ | ⟨c, i⟩ | ⟨c, i, k⟩ | ⟨c, k, i⟩ <;> rw [c]
    · have : 0 ≤ U.lo := by
        rcases h2 with h2 | h2
        · exact h2
        · exact i.nonneg (hsig.trans h2)
      rw [Int.toNat_of_nonneg this, c]; rfl
    · omega
    · rcases h2 with h2 | h2
      · have := (autoShiftTemp T).min_nonpos; omega
      · rw [hsig, h2] at k; cases k
    · rw [show (U.lo.toNat : Int) = 0 by omega, castTo_of_in (ITy.in_zero _)]; rfl
  rw [hl, key]
  exact e'

/-! ### bitwise operators -/

omit [Arch] in
private theorem top_bit {x : Int} (h : 0 < x) : bit x (sbits x - 1) = true := by
  have h1 := two_pow_sbits_le h
  have h2 := lt_two_pow_sbits (Int.le_of_lt h)
  have h3 := sbits_pos x
  have e : (2 : Int) ^ sbits x = 2 ^ (sbits x - 1) * 2 := by rw [← pow_succ, show sbits x - 1 + 1 = sbits x by omega]
  have p : (0 : Int) < 2 ^ (sbits x - 1) := Int.pow_pos (by decide)
  have hq : x / 2 ^ (sbits x - 1) = 1 := by
    refine ((Int.ediv_emod_unique (r := x - 2 ^ (sbits x - 1)) p).2 ⟨?_, by omega, by omega⟩).1
    omega
  unfold bit; rw [hq]; decide

/-- C77 for `|`, `&`, `^` on ranges that start at zero: the result type starts at zero, and its upper end is the least number
of the form `2 ^ n - 1` (with `n` at least 1) that no result exceeds. -/
theorem C77_bitwise (pp : PP) (o : Bitwise) (T U : Opd) (hT : T.Wf) (hU : U.Wf) (R : ITy) (hR : R.Ok)
    (hres : pp.result o.binOp T U = .ret R) (z1 : T.lo = 0) (z2 : U.lo = 0) (i1 : R.In T.hi) (i2 : R.In U.hi) :
    ∃ S n, bitwiseTy pp o T U = .ret S ∧ S.kind = .safe ∧ S.base = R ∧ S.lo = 0 ∧ S.hi = 2 ^ n - 1 ∧ 1 ≤ n ∧
      (∀ t u, T.Has t → U.Has u → ∀ i, n ≤ i → logic o (bit t i) (bit u i) = false) ∧
      (n = 1 ∨ ∃ t u, T.Has t ∧ U.Has u ∧ logic o (bit t (n - 1)) (bit u (n - 1)) = true) := by
  have hleT := hT.2.2.2.1; have hleU := hU.2.2.2.1
  obtain ⟨e, _⟩ := bitTy_eq o hR i1 i2 (by omega) (by omega)
  obtain ⟨pc, pm⟩ := pick_cases o T.hi U.hi
  have hp0 : 0 ≤ o.pick T.hi U.hi := by rcases pc with h | h <;> rw [h] <;> omega
  have hlt := lt_two_pow_sbits hp0
  refine ⟨Opd.range R 0 (2 ^ sbits (o.pick T.hi U.hi) - 1), sbits (o.pick T.hi U.hi), ?_, rfl, rfl, rfl, rfl, sbits_pos _, fun t u ht hu i hi => ?_, ?_⟩
  · unfold bitwiseTy; rw [hres, ret_bind, e]
  · have a1 := ht.1; have a2 := ht.2; have b1 := hu.1; have b2 := hu.2
    by_cases hand : o = .band
    · subst hand
      rcases pc with h | h
      · rw [bit_nonneg_high (x := t) (by omega) (by omega) hi]; rfl
      · rw [bit_nonneg_high (x := u) (by omega) (by omega) hi]; simp [logic]
    · obtain ⟨q1, q2⟩ := pm hand
      rw [bit_nonneg_high (x := t) (by omega) (by omega) hi, bit_nonneg_high (x := u) (by omega) (by omega) hi]
      cases o <;> rfl
  · rcases Int.lt_or_eq_of_le hp0 with h0 | h0
    · right
      have tb := top_bit h0
      have hz : ∀ j, bit 0 j = false := by intro j; unfold bit; simp
      by_cases hand : o = .band
      · subst hand
        have hmin : Bitwise.pick .band T.hi U.hi ≤ T.hi ∧ Bitwise.pick .band T.hi U.hi ≤ U.hi := by
          simp only [Bitwise.pick, pickMin]; split <;> omega
        exact ⟨_, _, ⟨by omega, hmin.1⟩, ⟨by omega, hmin.2⟩, by rw [tb]; rfl⟩
      · rcases pc with h | h <;> rw [h] at tb ⊢
        · exact ⟨T.hi, 0, hT.has_hi, ⟨by omega, by omega⟩, by rw [tb, hz]; cases o <;> first | rfl | exact absurd rfl hand⟩
        · exact ⟨0, U.hi, ⟨by omega, by omega⟩, hU.has_hi, by rw [tb, hz]; cases o <;> first | rfl | exact absurd rfl hand⟩
    · left; rw [← h0]; simp [sbits]

/-! ### native promotion -/

/-- Native promotion: the base type of the result of an operator is the type of the built-in expression on the base types
of the operands: their common type, for shifts the promoted type of the left operand. -/
theorem C77_native (T U S : Opd) :
    (∀ o : Arith, arithTy .native o T U = .ret S → S.base = uac T.base U.base) ∧
    (∀ o : Bitwise, bitwiseTy .native o T U = .ret S → S.base = uac T.base U.base) ∧
    (shlTy .native T U = .ret S → S.base = promote T.base) ∧
    (shrTy .native T U = .ret S → S.base = promote T.base) := by
  have key : ∀ f R, resTy f R T U = .ret S → S.base = R := fun f R h => by
    unfold resTy at h
    rcases e : resItv f R T U with ri | x | x <;> rw [e] at h <;> cases h
    rfl
  refine ⟨fun o h => ?_, fun o h => ?_, fun h => key _ _ h, fun h => key _ _ h⟩
  · cases o <;> exact key _ _ h
  · have h : bitTy o.pick (uac T.base U.base) T U = .ret S := by cases o <;> exact h
    unfold bitTy at h
    dsimp only at h
    rcases e : Out.static (roundOut (uac T.base U.base).toUnsigned (o.pick (conv (uac T.base U.base).toUnsigned T.hi)
      (conv (uac T.base U.base).toUnsigned U.hi))) with ri | x | x <;> rw [e] at h
    · rw [ret_bind] at h
      split at h <;> cases h
      rfl
    · cases h
    · cases h

/-! ### compound assignment with a policy that traps -/

/-- `t += u`, `t -= u`, `t *= u` on a safe variable with a policy that traps, when the result type represents the ends of the
operand ranges: the program compiles if and only if every possible result is a value of `R` and of the variable. -/
theorem C77_compound (pp : PP) (hpp : pp.Wf) (p : EP) (hp : p.ae = .trap) (o : Arith)
    (ho : o = .add ∨ o = .sub ∨ o = .mul) (T U : Opd) (hT : T.Wf) (hU : U.Wf) (hs : T.kind = .safe) (R : ITy)
    (hres : pp.result o.binOp T U = .ret R) (i1 : R.In T.lo) (i2 : R.In T.hi) (i3 : R.In U.lo)
    (i4 : R.In U.hi) (t u : Int) (ht : T.Has t) (hu : U.Has u) :
    compound pp p o T U t u ≠ .fault .illFormed ↔
      ∀ x y, T.Has x → U.Has y → R.In (math o x y) ∧ T.Has (math o x y) := by
  obtain ⟨S, eS, kS, bS, m, M, hm, hM, eL, eH⟩ := C77_arith pp hpp o ho T U hT hU R hres i1 i2 i3 i4
  have tr := C73_arith pp hpp p hp o ho T U hT hU t u ht hu
  unfold compound
  rw [eS, ret_bind]
  rcases C30_arith pp hpp p hp o ho T U hT hU with g | g
  · constructor
    · intro h
      exact absurd (show _ = _ by rw [g t u ht hu]; rfl) h
    · intro h
      refine absurd (g t u ht hu) (tr.2 ⟨R, hres, Or.inl fun x y hx hy => ⟨?_, ?_, (h x y hx hy).1⟩⟩)
      · exact ⟨Int.le_trans i1.1 hx.1, Int.le_trans hx.2 i2.2⟩
      · exact ⟨Int.le_trans i3.1 hy.1, Int.le_trans hy.2 i4.2⟩
  · have key : ∀ x y, T.Has x → U.Has y → S.Wf ∧ S.Has (math o x y) := fun x y hx hy => by
      obtain ⟨S', e', w, _, h⟩ := C29_arith pp hpp p (Or.inr hp) o ho T U hT hU x y _ hx hy (g x y hx hy)
      rw [eS] at e'; cases e'; exact ⟨w, h⟩
    obtain ⟨wS, hS⟩ := key t u ht hu
    rw [g t u ht hu, ret_bind]
    unfold store
    rw [hs]
    show construct p T S (math o t u) ≠ _ ↔ _
    rw [C73_construct p hp T S hT wS _ hS]
    constructor
    · intro h x y hx hy
      have hx' := (key x y hx hy).2
      exact ⟨bS ▸ wS.has_in hx', h _ hx'⟩
    · intro h x hx
      obtain ⟨⟨a, b, ha, hb, rfl⟩, _⟩ := hm
      obtain ⟨⟨c, d, hc, hd, rfl⟩, _⟩ := hM
      rw [if_pos (h a b ha hb).1] at eL
      rw [if_pos (h c d hc hd).1] at eH
      have h1 := (h a b ha hb).2.1; have h2 := (h c d hc hd).2.2; have h3 := hx.1; have h4 := hx.2
      exact ⟨by omega, by omega⟩

/-- `t |= u`, `t &= u`, `t ^= u` on a safe variable with a policy that traps, ranges without negative numbers that `R` holds:
the program compiles if and only if every value of the type of `t op u` is one of the variable. -/
theorem C77_compoundBit (pp : PP) (p : EP) (hp : p.ae = .trap) (o : Bitwise) (T U : Opd) (hT : T.Wf)
    (hs : T.kind = .safe) (R : ITy) (hR : R.Ok) (hres : pp.result o.binOp T U = .ret R) (zT : 0 ≤ T.lo) (zU : 0 ≤ U.lo)
    (fT : T.hi ≤ R.max) (fU : U.hi ≤ R.max) (t u : Int) (ht : T.Has t) (hu : U.Has u) :
    ∃ S, bitwiseTy pp o T U = .ret S ∧
      (compoundBit pp p o T U t u ≠ .fault .illFormed ↔ ∀ x, S.Has x → T.Has x) := by
  obtain ⟨v, S, h1, h2, wS, _, hS, hb⟩ := C27_bounds_partial pp o T U R hR hres zT zU fT fU t u ht hu
  refine ⟨S, h2, ?_⟩
  unfold compoundBit
  rw [h2, ret_bind, h1, ret_bind]
  unfold store
  rw [hs]
  exact C73_construct p hp T S hT wS v hS

end

section
attribute [local instance] lp64

/-! ### Examples -/

example : arithTy .native .mul (Opd.range i8 (-3) 5) (Opd.range i8 (-7) 2) = .ret (Opd.range i32 (-35) 21) ∧
    PP.native.result .mul (Opd.range i8 (-3) 5) (Opd.range i8 (-7) 2) = .ret i32 := by decide +kernel
example : arithTy .native .add (Opd.ofSafe i32) (Opd.range i32 (-5) 0) = .ret (Opd.range i32 i32.min i32.max) ∧
    Least (math .add) (Opd.ofSafe i32) (Opd.range i32 (-5) 0) (i32.min - 5) := by
  refine ⟨by decide +kernel, ⟨⟨i32.min, -5, by decide, by decide, by decide⟩, fun t u ht hu => ?_⟩⟩
  have := ht.1; have := hu.1
  have e1 : (Opd.ofSafe i32).lo = i32.min := rfl
  have e2 : (Opd.range i32 (-5) 0).lo = -5 := rfl
  simp only [math]; omega
example : arithTy .native .div (Opd.range i32 (-100) 90) (Opd.range i32 3 8) = .ret (Opd.range i32 (-33) 30) := by
  decide +kernel
example : shlTy .native (Opd.range i32 3 5) (Opd.range i32 1 4) = .ret (Opd.range i32 6 80) ∧
    shrTy .native (Opd.range i32 30 500) (Opd.range i32 1 4) = .ret (Opd.range i32 1 250) := by decide +kernel
example : PP.automatic.result .mul (Opd.range i8 (-3) 5) (Opd.range i8 (-7) 2) = .ret i8 ∧
    PP.automatic.result .add (Opd.ofSafe u8) (Opd.ofSafe u8) = .ret u16 ∧
    PP.automatic.result .div (Opd.ofSafe i32) (Opd.range i32 1000 2000) = .ret i32 ∧
    PP.automatic.result .shl (Opd.range i8 3 5) (Opd.range i8 1 6) = .ret i16 ∧
    PP.automatic.result .shr (Opd.range u32 30 500) (Opd.range i8 (-1) 4) = .ret u16 ∧
    PP.automatic.result .shr (Opd.range u32 30 500) (Opd.range i8 1 4) = .ret u8 := by decide +kernel
example : bitwiseTy .native .bor (Opd.range u32 0 5) (Opd.range u32 0 100) = .ret (Opd.range u32 0 127) ∧
    bitwiseTy .native .band (Opd.range u32 0 5) (Opd.range u32 0 100) = .ret (Opd.range u32 0 7) ∧
    bitwiseTy .native .bxor (Opd.range u32 0 0) (Opd.range u32 0 0) = .ret (Opd.range u32 0 1) := by decide +kernel
example : compound .native strictTrap .mul (Opd.range i8 0 9) (Opd.range i8 0 1) 5 1 = .ret 5 ∧
    compound .native strictTrap .mul (Opd.range i8 0 9) (Opd.range i8 0 2) 4 1 = .fault .illFormed := by decide +kernel
example : compoundBit .native strictTrap .band (Opd.range u32 0 255) (Opd.range u32 0 1000) 77 15 = .ret 13 ∧
    compoundBit .native strictTrap .bor (Opd.range u32 0 255) (Opd.range u32 0 1000) 77 15 = .fault .illFormed := by
  decide +kernel

end
end Verif.Props
