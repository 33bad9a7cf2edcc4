import Verif.Props.SafeDiv

/-!
Property C25, completely: what `%` does when the result type is as wide as the operand types, for all operands, including the two
pairs for which it is wrong.
-/

namespace Verif.Props
open Spec Out

section
variable [Arch]

private theorem crMod_in {R : ITy} {a b : Int} (ha : R.In a) (hb : R.In b) (h0 : b ≠ 0) :
    ∃ v, crMod R (.ok a) (.ok b) = .ret (.ok v) := by
  have e : ∃ v, modulus R make a b = .ret (.ok v) := by
    rw [modulus_eq ha hb, if_neg h0]
    split <;> exact ⟨_, rfl⟩
  obtain ⟨v, e⟩ := e
  unfold crMod
  rw [prodFlag_ok ha, prodFlag_ok hb]
  have hb' : (if b < 0 then PFlag.less_than_zero else if 0 < b then .greater_than_zero else .zero) =
      if b < 0 then .less_than_zero else .greater_than_zero := by
    by_cases h1 : b < 0
    · rw [if_pos h1, if_pos h1]
    · rw [if_neg h1, if_neg h1, if_pos (by omega)]
  rw [hb']
  split_ifs <;> first | exact ⟨v, e⟩ | exact ⟨0, rfl⟩

/-- no check is made when the result type represents both ranges and the divisor is never zero -/
private theorem modExc_free {R : ITy} {T U : Opd} (hU : U.lo ≤ U.hi) (i1 : R.In T.lo) (i2 : R.In T.hi) (i3 : R.In U.lo)
    (i4 : R.In U.hi) (h0 : ¬ U.Has 0) : modExc R T U = false := by
  have z : U.hi < 0 ∨ 0 < U.lo := by
    by_contra hn; push Not at hn; exact h0 ⟨hn.2, hn.1⟩
  unfold modExc
  rw [castTo_of_in i1, castTo_of_in i2, castTo_of_in i3, castTo_of_in i4]
  obtain ⟨c1, e1⟩ := crMod_in i1 i3 (by omega)
  obtain ⟨c4, e4⟩ := crMod_in i1 i4 (by omega)
  obtain ⟨c5, e5⟩ := crMod_in i2 i3 (by omega)
  obtain ⟨c8, e8⟩ := crMod_in i2 i4 (by omega)
  have pr : ∀ {a b v : Int}, R.In a → R.In b → crMod R (.ok a) (.ok b) = .ret (.ok v) → Proper R (.ok v) := by
    intro a b v ha hb e
    obtain ⟨x, ex, px, _⟩ := crMod_total (R := R) (c := .ok a) (d := .ok b) ha hb
    rw [e] at ex; cases ex; exact px
  have hp : ∀ c ∈ [CR.ok c1, .ok c4, .ok c5, .ok c8], Proper R c := by
    intro c hc; simp at hc
    rcases hc with rfl | rfl | rfl | rfl
    · exact pr i1 i3 e1
    · exact pr i1 i4 e4
    · exact pr i2 i3 e5
    · exact pr i2 i4 e8
  obtain ⟨m, M, e, hm, hM, _⟩ := minmax_cr (CR.ok c1) [.ok c4, .ok c5, .ok c8] hp
  have hth : thenCond R ⟨.ok U.lo, .ok U.hi⟩ = true := by
    change ((crLt R (.ok U.hi) (.ok 0)).or (crLt R (.ok 0) (.ok U.lo))).toBool = true
    rw [crLt_ok i4 R.in_zero, crLt_ok R.in_zero i3, T3.or_toBool]
    rcases z with z | z
    · rw [decide_eq_true z]; rfl
    · rw [decide_eq_true z, Bool.or_comm]; rfl
  have key : modItv R ⟨.ok T.lo, .ok T.hi⟩ ⟨.ok U.lo, .ok U.hi⟩ = .ret ⟨m, M⟩ := by
    unfold modItv divModItv
    change (if thenCond R _ = true then _ else _) = _
    rw [if_pos hth]
    simp only [itvMod, excludes_of_then hth, assertThat, if_true, Out.ret_bind, corners, minmax4, e1, e4, e5, e8, e]
  rw [key]
  dsimp only
  have ex : ∀ c ∈ [CR.ok c1, .ok c4, .ok c5, .ok c8], c.exception = false := by
    intro c hc; simp at hc
    rcases hc with rfl | rfl | rfl | rfl <;> rfl
  unfold divExcPossible
  rw [ex m hm, ex M hM, Bool.or_false, Bool.or_false]
  change ((crLe R (.ok U.lo) (.ok 0)).and (crLe R (.ok 0) (.ok U.hi))).toBool = false
  unfold crLe
  rw [crLt_ok R.in_zero i3, crLt_ok i4 R.in_zero, T3.and_toBool]
  rcases z with z | z
  · rw [decide_eq_true z, Bool.and_comm]; rfl
  · rw [decide_eq_true z]; rfl

private theorem promoted {R : ITy} (hs : R.signed = true) (h : promote R ≠ R) : (promote R).In (R.max + 1) := by
  have hl : R.lg < Arch.intLg := by
    by_contra hn; exact h (by unfold promote; rw [if_neg hn])
  have e : promote R = tInt := by unfold promote; rw [if_pos hl]
  rw [e]
  have m := tInt.min_nonpos; have g := R.max_ge
  refine ⟨by omega, ?_⟩
  have a : 2 ^ R.lg < 2 ^ Arch.intLg := Nat.pow_lt_pow_right (by omega) hl
  have b := Nat.two_pow_pos R.lg
  have d : R.digits < tInt.digits := by
    unfold ITy.digits ITy.bits tInt
    rw [hs]
    simp only [if_true]
    omega
  have k : 2 ^ R.digits < 2 ^ tInt.digits := Nat.pow_lt_pow_right (by omega) d
  have k' : ((2 : Int) ^ R.digits) < 2 ^ tInt.digits := by exact_mod_cast k
  unfold ITy.max
  omega

/-- The whole story of `t % u` computed in a type `R` that is as wide as both operand types, with a policy that throws: operands that
`R` does not represent and a zero divisor throw, otherwise the result is the remainder. There are two exceptions, both for the
smallest value of a signed type. -/
theorem C25_exact (pp : PP) (p : EP) (hp : p.ae = .throw) (T U : Opd) (hT : T.Wf) (hU : U.Wf) (nT : NotLit T) (nU : NotLit U)
    (R : ITy) (hR : R.Ok) (hres : pp.result .mod T U = .ret R) (hw : T.base.digits ≤ R.digits ∧ U.base.digits ≤ R.digits)
    (t u : Int) (ht : T.Has t) (hu : U.Has u) :
    arith pp p .mod T U t u =
      if R.signed = true ∧ t = R.min ∧ u = R.min ∧ U.Has 0 then .ret R.min
      else if R.signed = true ∧ t = R.min ∧ u = -1 ∧ ¬ U.Has 0 ∧ promote R = R then .fault .ub
      else remIn R t u := by
  have hn : ∀ {p : Prop}, R.signed ≠ true → ¬ (R.signed = true ∧ p) := fun h g => h g.1
  unfold arith
  rw [show Arith.binOp .mod = .mod from rfl, hres, ret_bind]
  show runMod p R T U t u = _
  have eB : tempBase R T U = .ret R := tempBase_self hR hw.1 hw.2
  have lits : LitsOk R T U := by
    have k : ∀ {T : Opd}, NotLit T → ∀ b, T.kind ≠ .lit b := fun h b hb => by rcases h with h | h <;> rw [h] at hb <;> cases hb
    exact ⟨litOk_not_lit (k nT), litOk_not_lit (k nU)⟩
  have fT := fits_of_digits hT hw.1; have fU := fits_of_digits hU hw.2
  have l1 := hT.2.2.2.1; have l2 := hU.2.2.2.1
  have gen : ¬ (R.signed = true ∧ t = R.min ∧ u = R.min) → (modExc R T U = false → ¬ (R.signed = true ∧ t = R.min ∧ u = -1)) →
      runMod p R T U t u = remIn R t u := by
    intro h1 h2
    obtain ⟨B, e, _, _, h⟩ := runMod_throw hp hR hT hU (fun _ => ⟨fT, fU⟩)
    rw [eB] at e
    obtain rfl := Out.ret.inj e
    rw [h ht hu h1 h2 (fun g _ => tmod_in g), if_neg (fun g => g.2 lits)]
  by_cases hs : R.signed = true
  · have e := ITy.min_eq R
    rw [hs] at e; simp only [if_true] at e
    have hm := R.max_ge
    have i1 : R.In T.lo := ⟨fT.2 hs, le_trans l1 fT.1⟩
    have i2 : R.In T.hi := ⟨le_trans (fT.2 hs) l1, fT.1⟩
    have i3 : R.In U.lo := ⟨fU.2 hs, le_trans l2 fU.1⟩
    have i4 : R.In U.hi := ⟨le_trans (fU.2 hs) l2, fU.1⟩
    by_cases hx : t = R.min ∧ (u = R.min ∨ u = -1)
    · obtain ⟨rfl, hx⟩ := hx
      have it : R.In R.min := R.in_min
      obtain ⟨ri, er, pl, pu, _⟩ := modItv_total (R := R) (t := ⟨castTo R T.lo, castTo R T.hi⟩)
        (u := ⟨castTo R U.lo, castTo R U.hi⟩) castTo_proper castTo_proper castTo_proper castTo_proper
      have hmx : modExc R T U = divExcPossible R ⟨castTo R U.lo, castTo R U.hi⟩ ri := by unfold modExc; rw [er]
      by_cases z : U.Has 0
      · have hex : modExc R T U = true := modExc_zero z.1 z.2
        rcases hx with rfl | rfl
        · rw [if_pos ⟨hs, rfl, rfl, z⟩]
          unfold runMod runDivMod
          rw [resItv_of hT hU er, castItv_eq hU]
          simp only [Out.ret_bind]
          rw [← hmx, if_pos hex, eB]
          simp only [Out.ret_bind]
          have h : p.ae ≠ .trap := by rw [hp]; decide
          rw [castStatics hT hU, traps_mod, if_pos ⟨lits, h⟩, castingHelper_throw hp hT ht hU hu lits.1 lits.2]
          simp only [h, decide_false, Bool.false_eq_true, if_false]
          rw [castTo_of_in it]
          simp only [orThrow, Out.ret_bind]
          rw [modulus_eq it it, if_neg (by omega), if_pos ⟨hs, rfl, rfl⟩]
          show Out.ret (conv R R.min) = _
          rw [conv_of_in it]
        · rw [if_neg (fun g => by have := g.2.2.1; omega), if_neg (fun g => g.2.2.2.1 z)]
          exact gen (fun g => by have := g.2.2; omega) (fun g => by rw [hex] at g; cases g)
      · have hex : modExc R T U = false := modExc_free l2 i1 i2 i3 i4 z
        have iu : R.In u := by
          rcases hx with rfl | rfl
          · exact it
          · exact ⟨by omega, by omega⟩
        have u0 : u ≠ 0 := by rcases hx with rfl | rfl <;> omega
        rw [if_neg (fun g => z g.2.2.2)]
        have plain : runMod p R T U R.min u = (do let v ← cMod R R (conv R R.min) (conv R u); Out.ret (conv R v)) := by
          unfold runMod runDivMod
          rw [resItv_of hT hU er, castItv_eq hU]
          simp only [Out.ret_bind]
          rw [← hmx, hex]
          rfl
        rw [plain, conv_of_in it, conv_of_in iu]
        rcases hx with rfl | rfl
        · rw [if_neg (fun g => by have := g.2.2.1; omega)]
          rw [cMod_eq (in_uac_self it) (in_uac_self it) u0 (fun _ => by
            rw [Int.tdiv_self u0]; exact in_uac_self R.in_one), ret_bind, Int.tmod_self, conv_of_in R.in_zero]
          unfold remIn
          rw [castTo_of_in it]
          dsimp only
          rw [if_neg u0, Int.tmod_self]
        · have us : uac R R = promote R := uac_self R
          have q : R.min.tdiv (-1) = R.max + 1 := by
            rw [Int.tdiv_neg, Int.tdiv_one]
            omega
          by_cases pr : promote R = R
          · rw [if_pos ⟨hs, rfl, rfl, z, pr⟩]
            unfold cMod
            rw [us, pr, conv_of_in it, conv_of_in iu]
            dsimp only
            rw [if_neg u0, if_pos ⟨hs, by rw [q]; intro g; have := g.2; omega⟩]
            rfl
          · rw [if_neg (fun g => pr g.2.2.2.2)]
            rw [cMod_eq (in_uac_self it) (in_uac_self iu) u0 (fun _ => by
              rw [q, us]
              exact promoted hs pr), ret_bind]
            have q0 : R.min.tmod (-1) = 0 := by rw [Int.tmod_neg]; exact Int.tmod_one _
            rw [q0, conv_of_in R.in_zero]
            unfold remIn
            rw [castTo_of_in it, castTo_of_in iu]
            dsimp only
            rw [if_neg u0, q0]
    · rw [if_neg (fun g => hx ⟨g.2.1, Or.inl g.2.2.1⟩), if_neg (fun g => hx ⟨g.2.1, Or.inr g.2.2.1⟩)]
      exact gen (fun g => hx ⟨g.2.1, Or.inl g.2.2⟩) (fun _ g => hx ⟨g.2.1, Or.inr g.2.2⟩)
  · rw [if_neg (hn hs), if_neg (hn hs)]
    exact gen (hn hs) (fun _ => hn hs)

/-- Native promotion: `t % u` of safe integers is the remainder, or throws for a zero divisor or an operand that the common type does not
represent. It is wrong for `min % min` when zero is in the range of the divisor, undefined for `min % -1` when it is not, and
in no other case. -/
theorem C25_native_exact (p : EP) (hp : p.ae = .throw) (T U : Opd) (hT : T.Wf) (hU : U.Wf) (nT : NotLit T) (nU : NotLit U)
    (t u : Int) (ht : T.Has t) (hu : U.Has u) :
    arith .native p .mod T U t u =
      if (uac T.base U.base).signed = true ∧ t = (uac T.base U.base).min ∧ u = (uac T.base U.base).min ∧ U.Has 0 then
        .ret (uac T.base U.base).min
      else if (uac T.base U.base).signed = true ∧ t = (uac T.base U.base).min ∧ u = -1 ∧ ¬ U.Has 0 then .fault .ub
      else remIn (uac T.base U.base) t u := by
  have pr : promote (uac T.base U.base) = uac T.base U.base := by
    have k : ∀ T : ITy, Arch.intLg ≤ (promote T).lg := fun T => by unfold promote; split <;> simp_all [tInt]
    have h : Arch.intLg ≤ (uac T.base U.base).lg := by
      have k1 := k T.base; have k2 := k U.base
      unfold uac
      dsimp only
      split_ifs <;> simp_all [ITy.toUnsigned] <;> omega
    unfold promote
    rw [if_neg (by omega)]
  rw [C25_exact .native p hp T U hT hU nT nU _ (uac_ok hT.1 hU.1) rfl ⟨uac_digits_left _ _, uac_digits_right _ _⟩ t u ht hu]
  simp only [pr, and_true]

end

section
attribute [local instance] lp64

-- the two exceptional pairs, and the same pairs with a divisor range for which they are right
example : arith .native strictException .mod (Opd.ofSafe i32) (Opd.ofSafe i32) (-2147483648) (-2147483648) = .ret (-2147483648) ∧
    arith .native strictException .mod (Opd.ofSafe i32) (Opd.range i32 (-2147483648) (-1)) (-2147483648) (-2147483648) = .ret 0 ∧
    arith .native strictException .mod (Opd.ofSafe i32) (Opd.range i32 (-2147483648) (-1)) (-2147483648) (-1) = .fault .ub ∧
    arith .native strictException .mod (Opd.ofSafe i32) (Opd.ofSafe i32) (-2147483648) (-1) = .ret 0 ∧
    arith .native strictException .mod (Opd.ofSafe i32) (Opd.ofSafe u32) (-7) 2 = .thrown .domain_error := by decide +kernel

end
end Verif.Props
