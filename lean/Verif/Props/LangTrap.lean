import Verif.Props.Lang

/-!
Property C62: whole programs whose exception policies trap. What compiles cannot fail.
-/

namespace Verif.Spec
section
variable [Arch]

/-- the condition compiles: every comparison in it is accepted (acceptance does not depend on the state, `C62_cond_partial`, so
one state in range is asked for) -/
def CCompiles {N : Names} (Γ : Fin n → PTy N) : LCond N n → Prop
  | .cmp o a b => ∃ s, Ranged Γ s ∧ (LCond.cmp o a b).eval Γ s ≠ .fault .illFormed
  | .truth a => ∃ s, Ranged Γ s ∧ (LCond.truth a).eval Γ s ≠ .fault .illFormed
  | .not a => CCompiles Γ a
  | .and a b => CCompiles Γ a ∧ CCompiles Γ b
  | .or a b => CCompiles Γ a ∧ CCompiles Γ b

/-- the statement compiles: every elementary statement and comparison in it is accepted -/
def Compiles {N : Names} (Γ : Fin n → PTy N) : LStmt N n → Prop
  | .skip => True
  | .assign i e => ∃ s, Ranged Γ s ∧ assignVal Γ s i e ≠ .fault .illFormed
  | .opAssign o i e => ∃ s, Ranged Γ s ∧ opAssignVal Γ s o i e ≠ .fault .illFormed
  | .inc i => ∃ s, Ranged Γ s ∧ opAssignVal Γ s (.ar .add) i (.const tInt 1) ≠ .fault .illFormed
  | .dec i => ∃ s, Ranged Γ s ∧ opAssignVal Γ s (.ar .sub) i (.const tInt 1) ≠ .fault .illFormed
  | .input i => ∃ v inp, (inputStep (Γ i) v inp).1 ≠ .fault .illFormed
  | .output e => ∃ s, Ranged Γ s ∧ e.eval Γ s ≠ .fault .illFormed
  | .seq a b => Compiles Γ a ∧ Compiles Γ b
  | .ite c a b => CCompiles Γ c ∧ Compiles Γ a ∧ Compiles Γ b
  | .while c a => CCompiles Γ c ∧ Compiles Γ a
  | .tryCatch a b => Compiles Γ a ∧ Compiles Γ b

end
end Verif.Spec

namespace Verif.Props
open Spec Lang

section
variable [Arch]

private theorem careful {N : Names} (h : Trapping N) : Careful N := ⟨fun e => Or.inr (h.1 e), h.2⟩

private theorem ep_trap {N : Names} (hN : Trapping N) {T : PTy N} (h : T.ex ≠ none) : T.ep.ae = .trap := by
  unfold PTy.ep
  split
  · exact hN.1 _
  · contradiction

private theorem pbin_trap {N : Names} (hN : Trapping N) {o : Op2} {T U : PTy N} (hT : PTy.Wf T) (hU : PTy.Wf U)
    (hc : BinCovered o T U) :
    (∀ t u, T.opd.Has t → U.opd.Has u → pBinVal o T U t u = .fault .illFormed) ∨
    (∃ S, pBinTy o T U = .ret S ∧ PTy.Wf S ∧ ∀ t u, T.opd.Has t → U.opd.Has u →
      ∃ v, pBinVal o T U t u = .ret v ∧ S.opd.Has v ∧ imath o t u = some v) := by
  obtain ⟨hs, hc⟩ := hc
  unfold pBinTy pBinVal
  simp only [isSafe_or hs, if_true]
  rcases common_st T.pr U.pr with ⟨q, eq⟩ | eq
  · rcases common_st T.ex U.ex with ⟨e, ee⟩ | ee
    · rw [eq, ee]
      simp only [ret_bind]
      rcases op_trap (hN.2 q) (hN.1 e) hT.1 hU.1 (hc q e eq ee) with h | ⟨S, h1, h2, h3, h⟩
      · exact Or.inl h
      · refine Or.inr ⟨⟨S, some q, some e⟩, ?_, ⟨h2, ?_, ?_, ?_⟩, h⟩
        · rw [h1]; rfl
        · intro h; simp [h3] at h
        · simp
        · intro b h; simp [h3] at h
    · rw [eq, ee]; exact Or.inl fun _ _ _ _ => rfl
  · rw [eq]; exact Or.inl fun _ _ _ _ => rfl

private theorem conv_trap {N : Names} (hN : Trapping N) {S T : PTy N} (hT : PTy.Wf T) (hc : ConvCovered S T) :
    (∀ t, T.opd.Has t → convTo S T t = .fault .illFormed) ∨ (∀ t, T.opd.Has t → convTo S T t = .ret t ∧ S.opd.Has t) := by
  obtain ⟨hS, hl, hc⟩ := hc
  unfold convTo
  rcases hl with hk | hk
  · rw [hk]
    dsimp only
    have hb := hS.1.2.2.2.2.1 hk
    have has : ∀ v, S.opd.base.In v → S.opd.Has v := fun v h => ⟨by rw [hb.1]; exact h.1, by rw [hb.2]; exact h.2⟩
    rcases hkT : T.opd.kind with _ | _ | b
    · dsimp only
      right; intro t ht
      have hin : S.opd.base.In t := by
        rcases hc with h | h | h
        · simp [PTy.isSafe, hk] at h
        · simp [PTy.isSafe, hkT] at h
        · exact h t (hT.1.has_in ht)
      rw [conv_of_in hin]
      exact ⟨rfl, has t hin⟩
    · dsimp only
      rcases toBuiltin_trap (ep_trap hN (hT.2.2.1 hkT).2) S.opd.base hT.1 with h | h
      · exact Or.inl h
      · exact Or.inr fun t ht => ⟨(h t ht).1, has t (h t ht).2⟩
    · dsimp only
      have e1 := hT.1.2.2.2.2.2 b hkT
      have et : ∀ t, T.opd.Has t → t = T.opd.lo := fun t ht => by have := ht.1; have := ht.2; omega
      have eT : T.opd = ⟨T.opd.base, T.opd.lo, T.opd.lo, .lit b⟩ := by
        rcases h : T.opd with ⟨B, l, u, k⟩
        rw [h] at e1 hkT; dsimp only at e1 hkT ⊢; subst e1 hkT; rfl
      obtain ⟨h1, _⟩ := C40_convert T.ep S.opd.base T.opd.base hT.1.1 T.opd.lo b hT.1.2.1
      by_cases hin : S.opd.base.In T.opd.lo
      · right; intro t ht
        rw [et t ht]
        refine ⟨?_, has _ hin⟩
        conv_lhs => rw [eT]
        exact h1 hin
      · left; intro t ht
        have hb := hT.2.2.2 b hkT
        conv_lhs => rw [eT]
        cases hx : T.ex with
        | none =>
          rw [hx] at hb; subst hb
          exact litFail hT.1.1 hT.1.2.1 hin
        | some e => exact litTrap (ep_trap hN (T := T) (by simp [hx])) hT.1.1 hT.1.2.1 hin
  · rw [hk]
    dsimp only
    by_cases h : T = S
    · subst h; right; intro t ht; rw [if_pos rfl]; exact ⟨rfl, ht⟩
    · simp only [if_neg h]
      exact validate_trap (ep_trap hN (hS.2.2.1 hk).2) hS.1 hT.1

private theorem neg_trap {N : Names} (hN : Trapping N) {T : PTy N} (hT : PTy.Wf T) (hs : T.isSafe = true) :
    (∀ t, T.opd.Has t → negValOf T t = .fault .illFormed) ∨
    (∃ S, negTyOf T = .ret S ∧ PTy.Wf S ∧ ∀ t, T.opd.Has t → negValOf T t = .ret (-t) ∧ S.opd.Has (-t)) := by
  unfold negTyOf negValOf
  rcases hk : T.opd.kind with _ | _ | b
  · simp [PTy.isSafe, hk] at hs
  · dsimp only
    have z : (PTy.builtin tInt : PTy N).opd.Has 0 := ITy.in_zero tInt
    rcases pbin_trap hN (o := .ar .sub) (pbuiltin_wf tInt_ok) hT ⟨Or.inr hs, fun q e _ _ => trivial⟩ with h | ⟨S, h1, h2, h⟩
    · exact Or.inl fun t ht => h 0 t z ht
    · refine Or.inr ⟨S, h1, h2, fun t ht => ?_⟩
      obtain ⟨v, g1, g2, g3⟩ := h 0 t z ht
      have g3 : some (0 - t) = some v := g3
      obtain rfl : -t = v := by have := Option.some.inj g3; omega
      exact ⟨g1, g2⟩
  · dsimp only
    have e1 := hT.1.2.2.2.2.2 b hk
    have et : ∀ t, T.opd.Has t → t = T.opd.lo := fun t ht => by have := ht.1; have := ht.2; omega
    have eT : T.opd = ⟨T.opd.base, T.opd.lo, T.opd.lo, .lit b⟩ := by
      rcases h : T.opd with ⟨B, l, u, k⟩
      rw [h] at e1 hk; dsimp only at e1 hk ⊢; subst e1 hk; rfl
    have em : litMinus T.opd = litMinus ⟨T.opd.base, T.opd.lo, T.opd.lo, .lit b⟩ := congrArg litMinus eT
    rw [em, C40_minus _ _ _ hT.1.2.1]
    split
    · rename_i h
      refine Or.inr ⟨_, rfl, ⟨⟨hT.1.1, h, h, le_refl _, nofun, fun _ _ => rfl⟩, nofun, nofun, fun c h => ?_⟩, fun t ht => ?_⟩
      · cases h; exact hT.2.2.2 b hk
      · rw [et t ht]; exact ⟨rfl, le_refl _, le_refl _⟩
    · exact Or.inl fun _ _ => rfl

private theorem eval_trap {N : Names} (hN : Trapping N) {n : Nat} {Γ : Fin n → PTy N} (hΓ : GoodVars Γ) :
    ∀ e : LExpr N n, ECovered Γ e →
      (∀ s, Ranged Γ s → e.eval Γ s = .fault .illFormed) ∨
      (∃ T, e.ty Γ = .ret T ∧ PTy.Wf T ∧ ∀ s, Ranged Γ s → ∃ v, e.eval Γ s = .ret v ∧ T.opd.Has v ∧ ival s e = some v)
  | .var i, _ => Or.inr ⟨Γ i, rfl, (hΓ i).1, fun s hs => ⟨s i, rfl, hs i, rfl⟩⟩
  | .const B k, h => Or.inr ⟨_, rfl, pbuiltin_wf h.1, fun _ _ => ⟨k, rfl, h.2, rfl⟩⟩
  | .lit L, h => Or.inr ⟨L, rfl, h.1, fun _ _ => ⟨L.opd.lo, rfl, ⟨le_refl _, h.1.1.2.2.2.1⟩, rfl⟩⟩
  | .pos a, h => by
    simp only [LExpr.eval, LExpr.ty, ival]
    rcases eval_trap hN hΓ a h with h | ⟨T, h1, h2, h⟩
    · exact Or.inl h
    · rw [h1]
      have z : T.opd.Has T.opd.lo := ⟨le_refl _, h2.1.2.2.2.1⟩
      refine Or.inr ⟨_, rfl, (pos_good h2 z).1, fun s hs => ?_⟩
      obtain ⟨v, g1, g2, g3⟩ := h s hs
      exact ⟨v, g1, (pos_good h2 g2).2, g3⟩
  | .cast S a, h => by
    obtain ⟨ha, hc⟩ := h
    simp only [LExpr.eval, LExpr.ty, ival]
    rcases ty_st Γ a with ⟨A, ea⟩ | ea
    · rw [ea]
      simp only [ret_bind]
      rcases eval_trap hN hΓ a ha with h | ⟨A', ea', wA, h⟩
      · left; intro s hs; rw [h s hs]; rfl
      · rw [ea] at ea'; obtain rfl := Out.ret.inj ea'
        rcases conv_trap hN wA (hc A ea) with g | g
        · left; intro s hs
          obtain ⟨v, h1, h2, _⟩ := h s hs
          rw [h1]; exact g v h2
        · refine Or.inr ⟨S, rfl, (hc A ea).1, fun s hs => ?_⟩
          obtain ⟨v, h1, h2, h3⟩ := h s hs
          rw [h1]; exact ⟨v, (g v h2).1, (g v h2).2, h3⟩
    · rw [ea]; exact Or.inl fun _ _ => rfl
  | .neg a, h => by
    obtain ⟨ha, hc⟩ := h
    simp only [LExpr.eval, LExpr.ty, ival]
    rcases ty_st Γ a with ⟨A, ea⟩ | ea
    · rw [ea]
      simp only [ret_bind]
      rcases eval_trap hN hΓ a ha with h | ⟨A', ea', wA, h⟩
      · left; intro s hs; rw [h s hs]; rfl
      · rw [ea] at ea'; obtain rfl := Out.ret.inj ea'
        rcases neg_trap hN wA (hc A ea) with g | ⟨S, g1, g2, g⟩
        · left; intro s hs
          obtain ⟨v, h1, h2, _⟩ := h s hs
          rw [h1]; exact g v h2
        · refine Or.inr ⟨S, g1, g2, fun s hs => ?_⟩
          obtain ⟨v, h1, h2, h3⟩ := h s hs
          rw [h1, h3]; exact ⟨-v, (g v h2).1, (g v h2).2, rfl⟩
    · rw [ea]; exact Or.inl fun _ _ => rfl
  | .bin o a b, h => by
    obtain ⟨ha, hb, hc⟩ := h
    simp only [LExpr.eval, LExpr.ty, ival]
    rcases ty_st Γ a with ⟨A, ea⟩ | ea
    · rcases ty_st Γ b with ⟨B, eb⟩ | eb
      · rw [ea, eb]
        simp only [ret_bind]
        rcases eval_trap hN hΓ a ha with h | ⟨A', ea', wA, h⟩
        · left; intro s hs; rw [h s hs]; rfl
        · rw [ea] at ea'; obtain rfl := Out.ret.inj ea'
          rcases eval_trap hN hΓ b hb with k | ⟨B', eb', wB, k⟩
          · left; intro s hs
            obtain ⟨x, h1, _⟩ := h s hs
            rw [h1, k s hs]; rfl
          · rw [eb] at eb'; obtain rfl := Out.ret.inj eb'
            rcases pbin_trap hN wA wB (hc A B ea eb) with g | ⟨S, g1, g2, g⟩
            · left; intro s hs
              obtain ⟨x, h1, h2, _⟩ := h s hs
              obtain ⟨y, k1, k2, _⟩ := k s hs
              rw [h1, k1]; exact g x y h2 k2
            · refine Or.inr ⟨S, g1, g2, fun s hs => ?_⟩
              obtain ⟨x, h1, h2, h3⟩ := h s hs
              obtain ⟨y, k1, k2, k3⟩ := k s hs
              rw [h1, k1, h3, k3]; exact g x y h2 k2
      · rw [ea, eb]; exact Or.inl fun _ _ => rfl
    · rw [ea]; exact Or.inl fun _ _ => rfl

private theorem cmp_trap {N : Names} (hN : Trapping N) {n : Nat} {Γ : Fin n → PTy N} (hΓ : GoodVars Γ) {o : Rel}
    {a b : LExpr N n} (h : CCovered Γ (.cmp o a b)) :
    (∀ s, Ranged Γ s → (LCond.cmp o a b).eval Γ s = .fault .illFormed) ∨
    (∀ s, Ranged Γ s → ∃ x, (LCond.cmp o a b).eval Γ s = .ret x ∧ icond s (.cmp o a b) = some x) := by
  obtain ⟨ha, hb, hc⟩ := h
  simp only [LCond.eval, icond]
  rcases ty_st Γ a with ⟨A, ea⟩ | ea
  · rcases ty_st Γ b with ⟨B, eb⟩ | eb
    · rw [ea, eb]
      simp only [ret_bind]
      rcases eval_trap hN hΓ a ha with h | ⟨A', ea', wA, h⟩
      · left; intro s hs; rw [h s hs]; rfl
      · rw [ea] at ea'; obtain rfl := Out.ret.inj ea'
        rcases eval_trap hN hΓ b hb with k | ⟨B', eb', wB, k⟩
        · left; intro s hs
          obtain ⟨x, h1, _⟩ := h s hs
          rw [h1, k s hs]; rfl
        · rw [eb] at eb'; obtain rfl := Out.ret.inj eb'
          rcases cmp_cases (hc A B ea eb) with hs | ⟨_, _, hs⟩
          case inr =>
            right; intro s hr
            obtain ⟨x, h1, h2, h3⟩ := h s hr
            obtain ⟨y, k1, k2, k3⟩ := k s hr
            rw [h1, k1, h3, k3]; exact ⟨_, hs o x y h2 k2, rfl⟩
          unfold pCompare
          simp only [isSafe_or hs, if_true]
          rcases common_st A.pr B.pr with ⟨q, eq⟩ | eq
          · rcases common_st A.ex B.ex with ⟨e, ee⟩ | ee
            · rw [eq, ee]
              simp only [ret_bind]
              rcases C30_compare (N.prom q) (hN.2 q) (N.act e) (hN.1 e) o A.opd B.opd wA.1 wB.1 with g | g
              · left; intro s hs
                obtain ⟨x, h1, h2, _⟩ := h s hs
                obtain ⟨y, k1, k2, _⟩ := k s hs
                rw [h1, k1]; exact g x y h2 k2
              · right; intro s hs
                obtain ⟨x, h1, h2, h3⟩ := h s hs
                obtain ⟨y, k1, k2, k3⟩ := k s hs
                rw [h1, k1, h3, k3]; exact ⟨_, g x y h2 k2, rfl⟩
            · rw [eq, ee]; left; intro s hs
              obtain ⟨x, h1, _⟩ := h s hs
              obtain ⟨y, k1, _⟩ := k s hs
              rw [h1, k1]; rfl
          · rw [eq]; left; intro s hs
            obtain ⟨x, h1, _⟩ := h s hs
            obtain ⟨y, k1, _⟩ := k s hs
            rw [h1, k1]; rfl
    · rw [ea, eb]; exact Or.inl fun _ _ => rfl
  · rw [ea]; exact Or.inl fun _ _ => rfl

private theorem truth_trap {N : Names} (hN : Trapping N) {n : Nat} {Γ : Fin n → PTy N} (hΓ : GoodVars Γ)
    {a : LExpr N n} (h : CCovered Γ (.truth a)) :
    (∀ s, Ranged Γ s → (LCond.truth a).eval Γ s = .fault .illFormed) ∨
    (∀ s, Ranged Γ s → ∃ x, (LCond.truth a).eval Γ s = .ret x ∧ icond s (.truth a) = some x) := by
  simp only [LCond.eval, icond]
  rcases eval_trap hN hΓ a h with h | ⟨A, ea, wA, h⟩
  · left; intro s hs
    rcases ty_st Γ a with ⟨A, ea⟩ | ea <;> rw [ea]
    · rw [h s hs]; rfl
    · rfl
  · rw [ea]
    simp only [ret_bind]
    rcases hk : A.opd.kind with _ | _ | b
    · right; intro s hs
      obtain ⟨x, h1, _, h3⟩ := h s hs
      rw [h1, h3]
      refine ⟨decide (x ≠ 0), ?_, rfl⟩
      rw [ret_bind]; unfold toBool; rw [hk]
    · left; intro s hs
      obtain ⟨x, h1, h2, _⟩ := h s hs
      rw [h1, ret_bind, toBool_safe wA.1 hk h2]
      unfold boolRun; rw [ep_trap hN (wA.2.2.1 hk).2]
    · have e1 := wA.1.2.2.2.2.2 b hk
      by_cases g : A.opd.lo = 0 ∨ A.opd.lo = 1
      · right; intro s hs
        obtain ⟨x, h1, h2, h3⟩ := h s hs
        have et : x = A.opd.lo := by have := h2.1; have := h2.2; omega
        rw [h1, h3, ret_bind, toBool_lit wA.1 hk, if_pos g, et]
        exact ⟨_, rfl, rfl⟩
      · left; intro s hs
        obtain ⟨x, h1, h2, _⟩ := h s hs
        rw [h1, ret_bind, toBool_lit wA.1 hk, if_neg g]
        split_ifs with g2
        · rfl
        · unfold boolRun
          rw [ep_trap hN fun hx => g2 (Or.inr (by rw [wA.2.2.2 b hk, hx]; rfl))]

private theorem cond_trap {N : Names} (hN : Trapping N) {n : Nat} {Γ : Fin n → PTy N} (hΓ : GoodVars Γ) :
    ∀ c : LCond N n, CCovered Γ c → CCompiles Γ c → ∀ s, Ranged Γ s → ∃ x, c.eval Γ s = .ret x ∧ icond s c = some x
  | .cmp o a b, hc, ⟨s0, r0, h0⟩, s, hs => by
    rcases cmp_trap hN hΓ hc with h | h
    · exact absurd (h s0 r0) h0
    · exact h s hs
  | .truth a, hc, ⟨s0, r0, h0⟩, s, hs => by
    rcases truth_trap hN hΓ hc with h | h
    · exact absurd (h s0 r0) h0
    · exact h s hs
  | .not a, hc, h, s, hs => by
    obtain ⟨x, h1, h2⟩ := cond_trap hN hΓ a hc h s hs
    simp only [LCond.eval, icond]
    rw [h1, h2]; exact ⟨_, rfl, rfl⟩
  | .and a b, hc, h, s, hs => by
    obtain ⟨x, h1, h2⟩ := cond_trap hN hΓ a hc.1 h.1 s hs
    simp only [LCond.eval, icond]
    rw [h1, h2]
    cases x
    · exact ⟨_, rfl, rfl⟩
    · exact cond_trap hN hΓ b hc.2 h.2 s hs
  | .or a b, hc, h, s, hs => by
    obtain ⟨x, h1, h2⟩ := cond_trap hN hΓ a hc.1 h.1 s hs
    simp only [LCond.eval, icond]
    rw [h1, h2]
    cases x
    · exact cond_trap hN hΓ b hc.2 h.2 s hs
    · exact ⟨_, rfl, rfl⟩

private theorem assign_trap {N : Names} (hN : Trapping N) {n : Nat} {Γ : Fin n → PTy N} (hΓ : GoodVars Γ)
    {i : Fin n} {e : LExpr N n} (he : ECovered Γ e) (hc : ∀ T, e.ty Γ = .ret T → ConvCovered (Γ i) T) :
    (∀ s, Ranged Γ s → assignVal Γ s i e = .fault .illFormed) ∨
    (∀ s, Ranged Γ s → ∃ v, assignVal Γ s i e = .ret v ∧ (Γ i).opd.Has v ∧ ival s e = some v) := by
  unfold assignVal
  rcases ty_st Γ e with ⟨A, ea⟩ | ea
  · rw [ea]
    simp only [ret_bind]
    rcases eval_trap hN hΓ e he with h | ⟨A', ea', wA, h⟩
    · left; intro s hs; rw [h s hs]; rfl
    · rw [ea] at ea'; obtain rfl := Out.ret.inj ea'
      rcases conv_trap hN wA (hc A ea) with g | g
      · left; intro s hs
        obtain ⟨v, h1, h2, _⟩ := h s hs
        rw [h1]; exact g v h2
      · right; intro s hs
        obtain ⟨v, h1, h2, h3⟩ := h s hs
        rw [h1]; exact ⟨v, (g v h2).1, (g v h2).2, h3⟩
  · rw [ea]; exact Or.inl fun _ _ => rfl

private theorem opAssign_trap {N : Names} (hN : Trapping N) {n : Nat} {Γ : Fin n → PTy N} (hΓ : GoodVars Γ)
    {o : Op2} {i : Fin n} {e : LExpr N n} (hc : AssignCovered Γ o i e) :
    (∀ s, Ranged Γ s → opAssignVal Γ s o i e = .fault .illFormed) ∨
    (∀ s, Ranged Γ s → ∃ v w, opAssignVal Γ s o i e = .ret v ∧ (Γ i).opd.Has v ∧ ival s e = some w ∧
      imath o (s i) w = some v) := by
  obtain ⟨he, hc⟩ := hc
  unfold opAssignVal
  rcases ty_st Γ e with ⟨A, ea⟩ | ea
  · rw [ea]
    simp only [ret_bind]
    rcases eval_trap hN hΓ e he with h | ⟨A', ea', wA, h⟩
    · left; intro s hs; rw [h s hs]; rfl
    · rw [ea] at ea'; obtain rfl := Out.ret.inj ea'
      rcases pBinTy_st o (Γ i) A with ⟨S, es⟩ | es
      · rw [es]
        simp only [ret_bind]
        rcases pbin_trap hN (hΓ i).1 wA (hc A ea) with k | ⟨S', es', wS, k⟩
        · left; intro s hs
          obtain ⟨v, h1, h2, _⟩ := h s hs
          rw [h1, ret_bind, k _ _ (hs i) h2]; rfl
        · rw [es] at es'; obtain rfl := Out.ret.inj es'
          have cov : ConvCovered (Γ i) S := ⟨(hΓ i).1, (hΓ i).2, Or.inr (Or.inl (pBinTy_safe (hc A ea).1 es))⟩
          rcases conv_trap hN wS cov with g | g
          · left; intro s hs
            obtain ⟨w, h1, h2, _⟩ := h s hs
            obtain ⟨v, k1, k2, _⟩ := k _ _ (hs i) h2
            rw [h1, ret_bind, k1]; exact g v k2
          · right; intro s hs
            obtain ⟨w, h1, h2, h3⟩ := h s hs
            obtain ⟨v, k1, k2, k3⟩ := k _ _ (hs i) h2
            rw [h1, ret_bind, k1]
            exact ⟨v, w, (g v k2).1, (g v k2).2, h3, k3⟩
      · rw [es]; left; intro s hs
        obtain ⟨v, h1, _⟩ := h s hs
        rw [h1]; rfl
  · rw [ea]; exact Or.inl fun _ _ => rfl

/-- With trapping policies a covered expression is rejected, whatever the values of the variables, or it has its integer value,
whatever the values of the variables. No exception, ever. -/
theorem C62_exact_partial {N : Names} (hN : Trapping N) {n : Nat} (Γ : Fin n → PTy N) (hΓ : GoodVars Γ) (e : LExpr N n)
    (he : ECovered Γ e) :
    (∀ s, Ranged Γ s → e.eval Γ s = .fault .illFormed) ∨
    (∃ T, e.ty Γ = .ret T ∧ ∀ s, Ranged Γ s → ∃ v, e.eval Γ s = .ret v ∧ ival s e = some v ∧ T.opd.Has v) := by
  rcases eval_trap hN hΓ e he with h | ⟨T, h1, _, h⟩
  · exact Or.inl h
  · refine Or.inr ⟨T, h1, fun s hs => ?_⟩
    obtain ⟨v, g1, g2, g3⟩ := h s hs
    exact ⟨v, g1, g3, g2⟩

/-- Likewise comparisons; so whether a program compiles does not depend on the state. -/
theorem C62_cond_partial {N : Names} (hN : Trapping N) {n : Nat} (Γ : Fin n → PTy N) (hΓ : GoodVars Γ) (o : Rel)
    (a b : LExpr N n) (h : CCovered Γ (.cmp o a b)) :
    (∀ s, Ranged Γ s → (LCond.cmp o a b).eval Γ s = .fault .illFormed) ∨
    (∀ s, Ranged Γ s → ∃ x, (LCond.cmp o a b).eval Γ s = .ret x ∧ icond s (.cmp o a b) = some x) :=
  cmp_trap hN hΓ h

/-- Likewise conditions that are the value of an expression. -/
theorem C62_truth_partial {N : Names} (hN : Trapping N) {n : Nat} (Γ : Fin n → PTy N) (hΓ : GoodVars Γ)
    (a : LExpr N n) (h : CCovered Γ (.truth a)) :
    (∀ s, Ranged Γ s → (LCond.truth a).eval Γ s = .fault .illFormed) ∨
    (∀ s, Ranged Γ s → ∃ x, (LCond.truth a).eval Γ s = .ret x ∧ icond s (.truth a) = some x) :=
  truth_trap hN hΓ h

/-- Reading a safe variable from a stream never compiles with a trapping policy. -/
theorem C62_input {N : Names} (hN : Trapping N) (T : PTy N) (hT : PTy.Wf T) (hk : T.opd.kind = .safe) (v : Int) (inp : IStream) :
    (inputStep T v inp).1 = .fault .illFormed := by
  have hs : T.isSafe = true := by simp [PTy.isSafe, hk]
  unfold inputStep
  rw [hs, if_pos rfl]
  unfold input
  rw [inputStatic_trap (ep_trap hN (hT.2.2.1 hk).2) hT.1]

private theorem ranged_write' {N : Names} {n : Nat} {Γ : Fin n → PTy N} {s : LState n} (hs : Ranged Γ s.st) {i : Fin n} {v : Int}
    (hv : (Γ i).opd.Has v) : Ranged Γ (s.write i v).st := by
  intro j
  show (Γ j).opd.Has (if j = i then v else s.st j)
  split
  · rename_i h; subst h; exact hv
  · exact hs j

/-- A program with trapping policies that compiles runs exactly like the same program over the unbounded integers, step by
step: it ends if and only if that one does, never throws, its variables stay within their ranges, and all variables, the
output and the input agree. -/
theorem C62_total_partial {N : Names} (hN : Trapping N) {n : Nat} (Γ : Fin n → PTy N) (hΓ : GoodVars Γ) :
    ∀ (f : Nat) (p : LStmt N n) (s : LState n), SCovered Γ p → Compiles Γ p → Ranged Γ s.st →
      (p.exec Γ f s = none ∧ iexec f p (abst s) = none) ∨
      (∃ s', p.exec Γ f s = some (.ret (), s') ∧ iexec f p (abst s) = some (some (abst s')) ∧ Ranged Γ s'.st ∧
        s'.caught = s.caught)
  | 0, p, s, _, _, _ => by cases p <;> exact Or.inl ⟨rfl, rfl⟩
  | f + 1, .skip, s, _, _, hs => Or.inr ⟨s, rfl, rfl, hs, rfl⟩
  | f + 1, .assign i e, s, hc, ⟨s0, r0, h0⟩, hs => by
    rcases assign_trap hN hΓ (i := i) hc.1 hc.2 with h | h
    · exact absurd (h s0 r0) h0
    · obtain ⟨v, h1, h2, h3⟩ := h s.st hs
      refine Or.inr ⟨s.write i v, ?_, ?_, ranged_write' hs h2, rfl⟩
      · simp only [LStmt.exec]; rw [h1]; rfl
      · show some ((ival s.st e).map _) = _
        rw [h3]; rfl
  | f + 1, .opAssign o i e, s, hc, ⟨s0, r0, h0⟩, hs => by
    rcases opAssign_trap hN hΓ hc with h | h
    · exact absurd (h s0 r0) h0
    · obtain ⟨v, w, h1, h2, h3, h4⟩ := h s.st hs
      refine Or.inr ⟨s.write i v, ?_, ?_, ranged_write' hs h2, rfl⟩
      · simp only [LStmt.exec]; rw [h1]; rfl
      · show some ((ival s.st e).bind (fun w => (imath o (s.st i) w).bind fun v => some ((abst s).write i v))) = _
        rw [h3]
        show some ((imath o (s.st i) w).bind _) = _
        rw [h4]; rfl
  | f + 1, .inc i, s, hc, ⟨s0, r0, h0⟩, hs => by
    rcases opAssign_trap hN hΓ (inc_covered hc (Or.inl rfl)) with h | h
    · exact absurd (h s0 r0) h0
    · obtain ⟨v, w, h1, h2, h3, h4⟩ := h s.st hs
      cases h3
      have h4 : some (s.st i + 1) = some v := h4
      cases h4
      refine Or.inr ⟨s.write i (s.st i + 1), ?_, rfl, ranged_write' hs h2, rfl⟩
      simp only [LStmt.exec]; rw [h1]; rfl
  | f + 1, .dec i, s, hc, ⟨s0, r0, h0⟩, hs => by
    rcases opAssign_trap hN hΓ (inc_covered hc (Or.inr rfl)) with h | h
    · exact absurd (h s0 r0) h0
    · obtain ⟨v, w, h1, h2, h3, h4⟩ := h s.st hs
      cases h3
      have h4 : some (s.st i - 1) = some v := h4
      cases h4
      refine Or.inr ⟨s.write i (s.st i - 1), ?_, rfl, ranged_write' hs h2, rfl⟩
      simp only [LStmt.exec]; rw [h1]; rfl
  | f + 1, .input i, s, hc, ⟨v, inp, h0⟩, hs => by
    have hk : (Γ i).opd.kind = .safe := (hΓ i).2.resolve_left (by have := hc.1; unfold PTy.isSafe at this; simpa using this)
    exact absurd (C62_input hN (Γ i) (hΓ i).1 hk v inp) h0
  | f + 1, .output e, s, hc, ⟨s0, r0, h0⟩, hs => by
    rcases eval_trap hN hΓ e hc.1 with h | ⟨T, h1, h2, h⟩
    · exact absurd (h s0 r0) h0
    · obtain ⟨v, g1, g2, g3⟩ := h s.st hs
      refine Or.inr ⟨{ s with out := s.out ++ printInt v }, ?_, ?_, hs, rfl⟩
      · simp only [LStmt.exec]
        have : outputStep T v = .ret (printInt v) := output_good h2 (hc.2 T h1) g2
        rw [h1, ret_bind, g1, ret_bind, this]
      · show some ((ival s.st e).map _) = _
        rw [g3]; rfl
  | f + 1, .seq a b, s, hc, h, hs => by
    simp only [LStmt.exec, iexec]
    rcases C62_total_partial hN Γ hΓ f a s hc.1 h.1 hs with ⟨h1, h2⟩ | ⟨s1, h1, h2, h3, h4⟩
    · rw [h1, h2]; exact Or.inl ⟨rfl, rfl⟩
    · rw [h1, h2]
      dsimp only
      rw [← h4]
      exact C62_total_partial hN Γ hΓ f b s1 hc.2 h.2 h3
  | f + 1, .ite c a b, s, hc, h, hs => by
    simp only [LStmt.exec, iexec]
    obtain ⟨x, h1, h2⟩ := cond_trap hN hΓ c hc.1 h.1 s.st hs
    rw [h1, show (abst s).st = s.st from rfl, h2]
    cases x
    · exact C62_total_partial hN Γ hΓ f b s hc.2.2 h.2.2 hs
    · exact C62_total_partial hN Γ hΓ f a s hc.2.1 h.2.1 hs
  | f + 1, .while c a, s, hc, h, hs => by
    simp only [LStmt.exec, iexec]
    obtain ⟨x, h1, h2⟩ := cond_trap hN hΓ c hc.1 h.1 s.st hs
    rw [h1, show (abst s).st = s.st from rfl, h2]
    cases x
    · exact Or.inr ⟨s, rfl, rfl, hs, rfl⟩
    · dsimp only
      rcases C62_total_partial hN Γ hΓ f a s hc.2 h.2 hs with ⟨h1, h2⟩ | ⟨s1, h1, h2, h3, h4⟩
      · rw [h1, h2]; exact Or.inl ⟨rfl, rfl⟩
      · rw [h1, h2]
        dsimp only
        rw [← h4]
        exact C62_total_partial hN Γ hΓ f (.while c a) s1 hc h h3
  | f + 1, .tryCatch a b, s, hc, h, hs => by
    simp only [LStmt.exec, iexec]
    rcases C62_total_partial hN Γ hΓ f a s hc.1 h.1 hs with ⟨h1, h2⟩ | ⟨s1, h1, h2, h3, h4⟩
    · rw [h1, h2]; exact Or.inl ⟨rfl, rfl⟩
    · rw [h1, h2]; exact Or.inr ⟨s1, rfl, rfl, h3, h4⟩

end

/-! ### a program meeting the hypotheses -/

section
attribute [local instance] lp64

private def trapNames : Names :=
  ⟨Unit, Unit, inferInstance, inferInstance, fun _ => .native, fun _ => strictTrap⟩

private theorem trap_trapping : Trapping trapNames := ⟨fun _ => rfl, fun _ => trivial⟩

/-- `safe_signed_range<0, 100> i`, `safe_signed_range<0, 10> j`, `safe<int> r` -/
private def trapΓ : Fin 3 → PTy trapNames
  | 0 => ⟨Opd.range i32 0 100, some (), some ()⟩
  | 1 => ⟨Opd.range i32 0 10, some (), some ()⟩
  | 2 => ⟨Opd.ofSafe i32, some (), some ()⟩

private theorem trap_good : GoodVars trapΓ := by
  intro i
  match i with
  | 0 | 1 | 2 => exact ⟨⟨by decide +kernel, nofun, fun _ => ⟨nofun, nofun⟩, nofun⟩, by decide⟩

private def trapStart : LState 3 := ⟨fun _ => 0, ⟨[], false, false⟩, [], 0⟩

-- `i = 100` is rejected: `int` has values outside the range of `i` ...
example : assignVal trapΓ (fun _ => 0) 0 (.const i32 100) = .fault .illFormed := by decide +kernel

/-- ... so a safe literal is used: `i = 100_lit; while (j < i) { r = i * i + j; i = j; } os << r;` -/
private def trapProg : LStmt trapNames 3 :=
  .seq (.assign 0 (.lit ⟨⟨i8, 100, 100, .lit true⟩, some (), some ()⟩)) (.seq (.while (.cmp .lt (.var 1) (.var 0))
    (.seq (.assign 2 (.bin (.ar .add) (.bin (.ar .mul) (.var 0) (.var 0)) (.var 1))) (.assign 0 (.var 1)))) (.output (.var 2)))

private theorem trap_start : Ranged trapΓ trapStart.st := by
  intro i
  match i with
  | 0 | 1 | 2 => decide +kernel

private theorem trap_compiles : Compiles trapΓ trapProg :=
  ⟨⟨trapStart.st, trap_start, by decide +kernel⟩, ⟨⟨trapStart.st, trap_start, by decide +kernel⟩,
    ⟨trapStart.st, trap_start, by decide +kernel⟩, ⟨trapStart.st, trap_start, by decide +kernel⟩⟩,
    ⟨trapStart.st, trap_start, by decide +kernel⟩⟩

private theorem trap_covered : SCovered trapΓ trapProg := by
  have conv : ∀ (i : Fin 3) (T : PTy trapNames), ConvCovered (trapΓ i) T := fun i T => by
    refine ⟨(trap_good i).1, (trap_good i).2, Or.inl ?_⟩
    match i with
    | 0 | 1 | 2 => rfl
  have mulTy : ∀ T, (LExpr.bin (.ar .mul) (.var 0) (.var 0)).ty trapΓ = .ret T → T.isSafe = true := by
    intro T h
    exact pBinTy_safe (o := .ar .mul) (T := trapΓ 0) (U := trapΓ 0) (Or.inl rfl) h
  refine ⟨⟨⟨⟨by decide +kernel, nofun, nofun, fun b h => by cases h; rfl⟩, true, rfl⟩, fun T _ => conv _ T⟩,
    ⟨⟨trivial, trivial, fun T U h _ => ?_⟩, ⟨⟨⟨trivial, trivial, fun T U h _ => ?_⟩, trivial, fun T U h _ => ?_⟩, fun T _ => conv _ T⟩,
      trivial, fun T _ => conv _ T⟩, trivial, fun T h => ?_⟩
  · cases h; exact Or.inl (Or.inl rfl)
  · cases h; exact ⟨Or.inl rfl, fun _ _ _ _ => trivial⟩
  · exact ⟨Or.inl (mulTy T h), fun _ _ _ _ => trivial⟩
  · cases h; exact Or.inl rfl

example : (trapProg.exec trapΓ 20 trapStart).map (fun r => (r.1, [r.2.st 0, r.2.st 1, r.2.st 2], String.ofList r.2.out)) =
    some (.ret (), [0, 0, 10000], "10000") := by decide +kernel

-- whatever the start, the program never fails
example (f : Nat) (s : LState 3) (hs : Ranged trapΓ s.st) : ∀ o s', trapProg.exec trapΓ f s = some (o, s') → o = .ret () := by
  intro o s' h
  rcases C62_total_partial trap_trapping trapΓ trap_good f trapProg s trap_covered trap_compiles hs with ⟨h1, _⟩ | ⟨s1, h1, _⟩
  · rw [h1] at h; cases h
  · rw [h1] at h; cases h; rfl

end
end Verif.Props
