import Verif.Proofs.SafeDiv2
import Verif.Proofs.SafeCmp
import Verif.Promotion

/-!
Lemmas about the promotion policies.
-/

namespace Verif
open Spec
section
variable [Arch]

/-! ### result intervals hold the results -/

/-- `x` is not outside those ends of the interval that are values -/
def Held (i : Itv CR) (x : Int) : Prop := (∀ v, i.l = .ok v → v ≤ x) ∧ (∀ w, i.u = .ok w → x ≤ w)

omit [Arch] in
theorem Held.endOr {R : ITy} {i : Itv CR} {x : Int} (h : Held i x) (hx : R.In x) :
    endOr R.min i.l ≤ x ∧ x ≤ endOr R.max i.u := by
  constructor
  · unfold Verif.endOr; split
    · rename_i v e; exact h.1 v e
    · exact hx.1
  · unfold Verif.endOr; split
    · rename_i v e; exact h.2 v e
    · exact hx.2

omit [Arch] in
theorem held_of_between {R : ITy} {i : Itv CR} {x : Int} (h : Between R i.l i.u x) : Held i x :=
  ⟨fun v e => by have := h.1; rw [e] at this; exact this, fun v e => by have := h.2; rw [e] at this; exact this⟩

theorem add_held (R : ITy) {T U : Opd} (hT : T.Wf) (hU : U.Wf) :
    ∃ ri, resItv itvAdd R T U = .ret ri ∧ Proper R ri.l ∧ Proper R ri.u ∧
      ∀ x y, T.Has x → U.Has y → Held ri (x + y) := by
  obtain ⟨l, e1, p1, f1⟩ := crAdd_total (R := R) (castTo_proper (x := T.lo)) (castTo_proper (x := U.lo))
  obtain ⟨u, e2, p2, f2⟩ := crAdd_total (R := R) (castTo_proper (x := T.hi)) (castTo_proper (x := U.hi))
  refine ⟨⟨l, u⟩, ?_, p1, p2, fun x y hx hy => ⟨fun v e => ?_, fun v e => ?_⟩⟩
  · apply resItv_of hT hU
    unfold itvAdd
    rw [e1, e2]; rfl
  · obtain ⟨a, b, h1, h2, rfl⟩ := f1 v e
    obtain ⟨rfl, _⟩ := castTo_ok h1; obtain ⟨rfl, _⟩ := castTo_ok h2
    have := hx.1; have := hy.1; omega
  · obtain ⟨a, b, h1, h2, rfl⟩ := f2 v e
    obtain ⟨rfl, _⟩ := castTo_ok h1; obtain ⟨rfl, _⟩ := castTo_ok h2
    have := hx.2; have := hy.2; omega

theorem sub_held (R : ITy) {T U : Opd} (hT : T.Wf) (hU : U.Wf) :
    ∃ ri, resItv itvSub R T U = .ret ri ∧ Proper R ri.l ∧ Proper R ri.u ∧
      ∀ x y, T.Has x → U.Has y → Held ri (x - y) := by
  obtain ⟨l, e1, p1, f1⟩ := crSub_total (R := R) (castTo_proper (x := T.lo)) (castTo_proper (x := U.hi))
  obtain ⟨u, e2, p2, f2⟩ := crSub_total (R := R) (castTo_proper (x := T.hi)) (castTo_proper (x := U.lo))
  refine ⟨⟨l, u⟩, ?_, p1, p2, fun x y hx hy => ⟨fun v e => ?_, fun v e => ?_⟩⟩
  · apply resItv_of hT hU
    unfold itvSub
    rw [e1, e2]; rfl
  · obtain ⟨a, b, h1, h2, rfl⟩ := f1 v e
    obtain ⟨rfl, _⟩ := castTo_ok h1; obtain ⟨rfl, _⟩ := castTo_ok h2
    have := hx.1; have := hy.2; omega
  · obtain ⟨a, b, h1, h2, rfl⟩ := f2 v e
    obtain ⟨rfl, _⟩ := castTo_ok h1; obtain ⟨rfl, _⟩ := castTo_ok h2
    have := hx.2; have := hy.1; omega

omit [Arch] in
/-- `x` itself represents its conversion -/
theorem rep_castTo {R : ITy} {x : Int} (hv : ¬ Vague (castTo R x)) : Rep (R.max + 1) (castTo R x) x := by
  rcases (castTo R x).cases4 with ⟨a, h⟩ | h | h | h
  · rw [h]; exact (castTo_ok h).1.symm
  · have g := castTo_neg_marker h
    rw [h]; show x ≤ _
    have e := ITy.min_eq R; rw [g.2] at e; simp at e; omega
  · have g := castTo_pos_marker h
    rw [h]; show _ ≤ x; omega
  · exact absurd h hv

theorem mul_held {R : ITy} (hR : R.Ok) {T U : Opd} (hT : T.Wf) (hU : U.Wf) :
    ∃ ri, resItv itvMul R T U = .ret ri ∧ Proper R ri.l ∧ Proper R ri.u ∧
      (Vague (castTo R T.lo) ∨ Vague (castTo R U.lo) → Vague ri.l ∧ Vague ri.u) ∧
      ∀ x y, T.Has x → U.Has y → Held ri (x * y) := by
  have hz := R.min_nonpos; have hm := R.max_ge
  obtain ⟨c1, e1, p1, g1, n1, f1⟩ := crMul_total hR (castTo_proper (x := T.lo)) (castTo_proper (x := U.lo))
  obtain ⟨c2, e2, p2, g2, n2, f2⟩ := crMul_total hR (castTo_proper (x := T.lo)) (castTo_proper (x := U.hi))
  obtain ⟨c3, e3, p3, g3, n3, f3⟩ := crMul_total hR (castTo_proper (x := T.hi)) (castTo_proper (x := U.lo))
  obtain ⟨c4, e4, p4, g4, n4, f4⟩ := crMul_total hR (castTo_proper (x := T.hi)) (castTo_proper (x := U.hi))
  have hp : ∀ c ∈ [c1, c2, c3, c4], Proper R c := by
    intro c hc; simp at hc; rcases hc with rfl | rfl | rfl | rfl <;> assumption
  obtain ⟨m, M, e, hmem, hMem, hh⟩ := minmax_cr c1 [c2, c3, c4] hp
  refine ⟨⟨m, M⟩, ?_, hp m hmem, hp M hMem, ?_, ?_⟩
  · apply resItv_of hT hU
    simp only [itvMul, corners, minmax4, e1, e2, e3, e4, e, Out.ret_bind]
  · intro v
    rcases hh with ⟨va, rfl, rfl⟩ | ⟨va, _⟩
    · exact ⟨va, va⟩
    · exact absurd (g1 v) va
  · intro x y hx hy
    rcases hh with ⟨va, rfl, rfl⟩ | ⟨va, _, _, hh⟩
    · refine ⟨fun v e => ?_, fun v e => ?_⟩
      · obtain rfl : _ = CR.ok v := e; exact absurd va (not_vague_ok _)
      · obtain rfl : _ = CR.ok v := e; exact absurd va (not_vague_ok _)
    · have hTl := hT.2.2.2.1; have hUl := hU.2.2.2.1
      have vTl : ¬ Vague (castTo R T.lo) := fun h => va (g1 (Or.inl h))
      have vUl : ¬ Vague (castTo R U.lo) := fun h => va (g1 (Or.inr h))
      have vTh : ¬ Vague (castTo R T.hi) := fun h => vTl (castTo_vague.2 ⟨(castTo_vague.1 h).1, by have := (castTo_vague.1 h).2; omega⟩)
      have vUh : ¬ Vague (castTo R U.hi) := fun h => vUl (castTo_vague.2 ⟨(castTo_vague.1 h).1, by have := (castTo_vague.1 h).2; omega⟩)
      have hK : 1 ≤ R.max + 1 := by omega
      obtain ⟨_, q1, _, v1, l1, u1⟩ := crMul_rep hR hK castTo_proper castTo_proper (rep_castTo vTl) (rep_castTo vUl)
      obtain ⟨_, q2, _, v2, l2, u2⟩ := crMul_rep hR hK castTo_proper castTo_proper (rep_castTo vTl) (rep_castTo vUh)
      obtain ⟨_, q3, _, v3, l3, u3⟩ := crMul_rep hR hK castTo_proper castTo_proper (rep_castTo vTh) (rep_castTo vUl)
      obtain ⟨_, q4, _, v4, l4, u4⟩ := crMul_rep hR hK castTo_proper castTo_proper (rep_castTo vTh) (rep_castTo vUh)
      obtain rfl : _ = c1 := by simpa [q1] using e1
      obtain rfl : _ = c2 := by simpa [q2] using e2
      obtain rfl : _ = c3 := by simpa [q3] using e3
      obtain rfl : _ = c4 := by simpa [q4] using e4
      have me := ITy.min_eq R
      refine ⟨fun v e => ?_, fun v e => ?_⟩
      · obtain rfl : m = CR.ok v := e
        have hv : R.In v := hp _ hmem
        have h1 := hv.1; have h2 := hv.2
        have k : ∀ c, c ∈ _ → ¬ Vague c → v ≤ c.key R := fun c hc hvc => (hh c hc hvc).1
        exact corner_lower hx.1 hx.2 hy.1 hy.2 (l1 v h1 (by omega) (by omega) (k _ (by simp) v1))
          (l2 v h1 (by omega) (by omega) (k _ (by simp) v2)) (l3 v h1 (by omega) (by omega) (k _ (by simp) v3))
          (l4 v h1 (by omega) (by omega) (k _ (by simp) v4))
      · obtain rfl : M = CR.ok v := e
        have hv : R.In v := hp _ hMem
        have h1 := hv.1; have h2 := hv.2
        have k : ∀ c, c ∈ _ → ¬ Vague c → c.key R ≤ v := fun c hc hvc => (hh c hc hvc).2
        have h3 : -(R.max + 1) ≤ v := by split at me <;> omega
        exact corner_upper hx.1 hx.2 hy.1 hy.2 (u1 v (by omega) h2 h3 (k _ (by simp) v1))
          (u2 v (by omega) h2 h3 (k _ (by simp) v2)) (u3 v (by omega) h2 h3 (k _ (by simp) v3))
          (u4 v (by omega) h2 h3 (k _ (by simp) v4))

/-! ### native -/

theorem uac_digits_left (T U : ITy) : T.digits ≤ (uac T U).digits := by
  have h := (in_uac_left_nonneg (U := U) (show 0 ≤ T.max from by have := T.max_ge; omega) T.in_max).2
  unfold ITy.max at h
  have h : (2 : Int) ^ T.digits ≤ 2 ^ (uac T U).digits := by omega
  have h : 2 ^ T.digits ≤ 2 ^ (uac T U).digits := by exact_mod_cast h
  exact (Nat.pow_le_pow_iff_right (by omega)).1 h

theorem uac_digits_right (T U : ITy) : U.digits ≤ (uac T U).digits := by
  rw [uac_comm]; exact uac_digits_left U T

theorem promote_digits (T : ITy) : T.digits ≤ (promote T).digits := by
  rw [← uac_self]; exact uac_digits_left T T

/-- operands fit a type with at least as many digits -/
theorem fits_of_digits {R : ITy} {T : Opd} (hT : T.Wf) (hd : T.base.digits ≤ R.digits) : Fits R T := by
  have h := two_pow_le hd
  have h1 := hT.2.2.1.2; have h2 := hT.2.1.1
  unfold ITy.max at h1
  refine ⟨by unfold ITy.max; omega, fun hs => ?_⟩
  have e := ITy.min_eq R; rw [hs] at e; simp at e
  unfold ITy.max at e
  have e' := ITy.min_eq T.base
  have := R.min_nonpos
  unfold ITy.max at e'
  split at e' <;> omega

theorem native_fits {T U : Opd} (hT : T.Wf) (hU : U.Wf) :
    Fits (uac T.base U.base) T ∧ Fits (uac T.base U.base) U :=
  ⟨fits_of_digits hT (uac_digits_left _ _), fits_of_digits hU (uac_digits_right _ _)⟩

/-! ### automatic -/

theorem autoStored_spec {B : ITy} (hB : B = tIntMax ∨ B = tUIntMax) {mn mx : Int} (h1 : B.In mn) (h2 : B.In mx) :
    ∃ S, autoStored B mn mx = .ret S ∧ S.signed = B.signed ∧ S.Ok ∧ (∀ x, mn ≤ x → x ≤ mx → S.In x) ∧
      (∀ S' : ITy, S'.signed = B.signed → S'.In mn → S'.In mx → S.lg ≤ S'.lg) := by
  rcases hB with rfl | rfl
  · obtain ⟨S, e, hs, ok, i1, i2, m⟩ := signedStoredType_spec h1 h2
    exact ⟨S, e, hs, ok, fun x g1 g2 => ⟨by have := i1.1; omega, by have := i2.2; omega⟩, m⟩
  · obtain ⟨S, e, hs, ok, i2, m⟩ := unsignedStoredType_spec (mn := mn) h2
    refine ⟨S, e, hs, ok, fun x g1 g2 => ⟨?_, by have := i2.2; omega⟩, fun S' q1 _ q3 => m S' q1 q3⟩
    have := h1.nonneg rfl
    have := S.min_nonpos; omega

theorem autoEnds_spec {B : ITy} (hB : B = tIntMax ∨ B = tUIntMax) {i : Itv CR} (p1 : Proper B i.l)
    (p2 : Proper B i.u) :
    ∃ S, autoEnds B i = .ret S ∧ S.signed = B.signed ∧ S.Ok ∧
      ∀ x, Held i x → B.In x → S.In x := by
  have q1 : B.In (endOr B.min i.l) := by
    unfold endOr; split
    · rename_i v h; rw [h] at p1; exact p1
    · exact B.in_min
  have q2 : B.In (endOr B.max i.u) := by
    unfold endOr; split
    · rename_i v h; rw [h] at p2; exact p2
    · exact B.in_max
  obtain ⟨S, e, hs, ok, h, _⟩ := autoStored_spec hB q1 q2
  exact ⟨S, e, hs, ok, fun x hb hx => h x (hb.endOr hx).1 (hb.endOr hx).2⟩

theorem autoTemp_cases (T U : Opd) : autoTemp T U = tIntMax ∨ autoTemp T U = tUIntMax := by
  unfold autoTemp; split
  · exact Or.inr rfl
  · exact Or.inl rfl

theorem itvDiv_total {R : ITy} {t u : Itv CR} (ptl : Proper R t.l) (ptu : Proper R t.u) (pul : Proper R u.l)
    (puu : Proper R u.u) (h : thenCond R u = true) :
    ∃ ri, itvDiv R t u = .ret ri ∧ Proper R ri.l ∧ Proper R ri.u := by
  obtain ⟨ri, e, p1, p2, _⟩ := divItv_total ptl ptu pul puu
  unfold divItv divModItv at e
  change (if thenCond R u = true then _ else _) = _ at e
  rw [if_pos h] at e
  exact ⟨ri, e, p1, p2⟩

/-- the interval the automatic policy computes for `%` exists -/
theorem autoModItv_total {R : ITy} {t u : Itv CR} (ptl : Proper R t.l) (ptu : Proper R t.u) (pul : Proper R u.l)
    (puu : Proper R u.u) :
    ∃ ri, divModItv itvDiv crMod R t u = .ret ri ∧ Proper R ri.l ∧ Proper R ri.u := by
  by_cases h : thenCond R u = true
  · obtain ⟨ri, e, p⟩ := itvDiv_total ptl ptu pul puu h
    refine ⟨ri, ?_, p⟩
    unfold divModItv
    change (if thenCond R u = true then _ else _) = _
    rw [if_pos h, e]
  · obtain ⟨ri, e, p1, p2, _⟩ := modItv_total ptl ptu pul puu
    refine ⟨ri, ?_, p1, p2⟩
    unfold modItv divModItv at e
    change (if thenCond R u = true then _ else _) = _ at e
    rw [if_neg h] at e
    unfold divModItv
    change (if thenCond R u = true then _ else _) = _
    rw [if_neg h, e]

theorem autoTemp_ok (T U : Opd) : (autoTemp T U).Ok := by
  rcases autoTemp_cases T U with h | h <;> rw [h]
  · exact tIntMax_ok
  · exact tUIntMax_ok

theorem unionItv_proper {B : ITy} {t u : Itv CR} (h1 : Proper B t.l) (h2 : Proper B t.u) (h3 : Proper B u.l)
    (h4 : Proper B u.u) : Proper B (unionItv B t u).l ∧ Proper B (unionItv B t u).u := by
  unfold unionItv
  constructor
  · dsimp only; split <;> assumption
  · dsimp only; split <;> assumption

/-- the automatic policy has a result type for every arithmetic operator and comparison -/
theorem autoResult_total {op : BinOp} (hop : op ≠ .shl ∧ op ≠ .shr) {T U : Opd} (hT : T.Wf) (hU : U.Wf) :
    ∃ R, autoResult op T U = .ret R ∧ R.Ok := by
  have hB := autoTemp_cases T U
  cases op
  case shl => exact absurd rfl hop.1
  case shr => exact absurd rfl hop.2
  case add =>
    obtain ⟨ri, e, p1, p2, _⟩ := add_held (autoTemp T U) hT hU
    obtain ⟨S, e', _, ok, _⟩ := autoEnds_spec hB p1 p2
    exact ⟨S, by simp only [autoResult, e, Out.ret_bind, e'], ok⟩
  case sub =>
    obtain ⟨ri, e, p1, p2, _⟩ := sub_held tIntMax hT hU
    obtain ⟨S, e', _, ok, _⟩ := autoEnds_spec (Or.inl rfl) p1 p2
    exact ⟨S, by simp only [autoResult, e, Out.ret_bind, e'], ok⟩
  case mul =>
    obtain ⟨ri, e, p1, p2, _⟩ := mul_held (autoTemp_ok T U) hT hU
    obtain ⟨S, e', _, ok, _⟩ := autoEnds_spec hB p1 p2
    exact ⟨S, by simp only [autoResult, e, Out.ret_bind, e'], ok⟩
  case div =>
    obtain ⟨ri, e, p1, p2, _⟩ := divItv_total (R := autoTemp T U) (castTo_proper (x := T.lo))
      (castTo_proper (x := T.hi)) (castTo_proper (x := U.lo)) (castTo_proper (x := U.hi))
      (t := ⟨_, _⟩) (u := ⟨_, _⟩)
    obtain ⟨S, e', _, ok, _⟩ := autoEnds_spec hB p1 p2
    exact ⟨S, by simp only [autoResult, resItv_of hT hU (f := divModItv itvDiv crDiv) e, Out.ret_bind, e'], ok⟩
  case mod =>
    obtain ⟨ri, e, p1, p2⟩ := autoModItv_total (R := autoTemp T U) (castTo_proper (x := T.lo))
      (castTo_proper (x := T.hi)) (castTo_proper (x := U.lo)) (castTo_proper (x := U.hi))
      (t := ⟨_, _⟩) (u := ⟨_, _⟩)
    obtain ⟨S, e', _, ok, _⟩ := autoEnds_spec hB p1 p2
    exact ⟨S, by simp only [autoResult, resItv_of hT hU e, Out.ret_bind, e'], ok⟩
  case cmp =>
    have pp := unionItv_proper (B := autoTemp T U) (t := ⟨castTo (autoTemp T U) T.lo, castTo (autoTemp T U) T.hi⟩)
      (u := ⟨castTo (autoTemp T U) U.lo, castTo (autoTemp T U) U.hi⟩)
      castTo_proper castTo_proper castTo_proper castTo_proper
    obtain ⟨S, e', _, ok, _⟩ := autoEnds_spec hB pp.1 pp.2
    refine ⟨S, ?_, ok⟩
    simp only [autoResult, autoCmp, castItv_eq hT, castItv_eq hU, Out.ret_bind, e']
  all_goals exact ⟨_, rfl, uac_ok hT.1 hU.1⟩

/-! ### cpp -/

theorem cppPromote_ok {m : CppCfg} (hm : m.i ≤ Arch.maxLg) {T : ITy} (hT : T.Ok) : (cppPromote m T).Ok := by
  unfold cppPromote copySign higherRanked ITy.Ok
  split
  · exact hT
  · exact hm

omit [Arch] in
theorem cppUac_cases {m : CppCfg} {P Q : ITy} :
    cppUac m P Q = .ret P ∨ cppUac m P Q = .ret Q ∨ cppUac m P Q = .fault .illFormed := by
  unfold cppUac higherRanked selectSigned selectUnsigned
  split_ifs <;> simp

theorem cppResult_total {m : CppCfg} (hm : m.i ≤ Arch.maxLg) {T U : ITy} (hT : T.Ok) (hU : U.Ok) :
    (∃ R, cppResult m T U = .ret R ∧ R.Ok) ∨ cppResult m T U = .fault .illFormed := by
  unfold cppResult
  rcases cppUac_cases (m := m) (P := cppPromote m T) (Q := cppPromote m U) with h | h | h
  · exact Or.inl ⟨_, h, cppPromote_ok hm hT⟩
  · exact Or.inl ⟨_, h, cppPromote_ok hm hU⟩
  · exact Or.inr h

/-- a policy either gives a type of the machine or the program does not compile -/
theorem PP.result_total {pp : PP} (hpp : pp.Wf) {op : BinOp} (hop : op ≠ .shl ∧ op ≠ .shr) {T U : Opd} (hT : T.Wf)
    (hU : U.Wf) : (∃ R, pp.result op T U = .ret R ∧ R.Ok) ∨ pp.result op T U = .fault .illFormed := by
  cases pp
  case native =>
    left
    refine ⟨_, rfl, ?_⟩
    unfold nativeResult; split
    · exact promote_ok hT.1
    · exact promote_ok hT.1
    · exact uac_ok hT.1 hU.1
  case automatic => exact Or.inl (autoResult_total hop hT hU)
  case cpp m => exact cppResult_total hpp.2.2.1 hT.1 hU.1

end
end Verif
