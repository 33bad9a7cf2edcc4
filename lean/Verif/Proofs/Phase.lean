import Verif.Proofs.Quiet

/-!
Helper lemmas for C67: whether an operator, comparison or conversion is rejected depends on the types only.
-/

namespace Verif
open Spec Lang Props

section
variable [Arch]

/-- rejected for all operands or for none -/
def Phase2 (T U : Opd) {α : Type} (val : Int → Int → Out α) : Prop :=
  (∀ t u, T.Has t → U.Has u → val t u = .fault .illFormed) ∨ (∀ t u, T.Has t → U.Has u → val t u ≠ .fault .illFormed)

/-- rejected for all operands or for none -/
def Phase1 (T : Opd) {α : Type} (val : Int → Out α) : Prop :=
  (∀ t, T.Has t → val t = .fault .illFormed) ∨ (∀ t, T.Has t → val t ≠ .fault .illFormed)

omit [Arch] in
theorem phase2_if {T U : Opd} {α : Type} {val g : Int → Int → Out α} {c : Prop} [Decidable c]
    (h : ∀ t u, T.Has t → U.Has u → val t u = if c then .fault .illFormed else g t u)
    (hg : ∀ t u, g t u ≠ .fault .illFormed) : Phase2 T U val := by
  by_cases hc : c
  · exact Or.inl fun t u ht hu => by rw [h t u ht hu, if_pos hc]
  · exact Or.inr fun t u ht hu => by rw [h t u ht hu, if_neg hc]; exact hg t u

omit [Arch] in
theorem orThrow_legal {α : Type} {x : CR} {k : Int → Out α} (h : ∀ v, k v ≠ .fault .illFormed) :
    (orThrow x >>= k) ≠ .fault .illFormed := by
  cases x with
  | ok v => exact h v
  | err e => nofun

omit [Arch] in
theorem exactIn_legal {R : ITy} (t u v : Int) : exactIn R t u v ≠ .fault .illFormed := by
  unfold exactIn
  cases castTo R t <;> cases castTo R u <;> dsimp only
  · cases exactOr R.min R.max v <;> nofun
  · nofun
  · nofun
  · nofun

omit [Arch] in
theorem quotIn_legal {R : ITy} (t u : Int) : quotIn R t u ≠ .fault .illFormed := by
  unfold quotIn
  cases castTo R t <;> cases castTo R u <;> dsimp only <;> (try split_ifs) <;> nofun

omit [Arch] in
theorem remIn_legal {R : ITy} (t u : Int) : remIn R t u ≠ .fault .illFormed := by
  unfold remIn
  cases castTo R t <;> cases castTo R u <;> dsimp only <;> (try split_ifs) <;> nofun

omit [Arch] in
theorem cmpIn_legal {R : ITy} (t u : Int) (b : Bool) : cmpIn R t u b ≠ .fault .illFormed := by
  unfold cmpIn
  cases castTo R t <;> cases castTo R u <;> nofun

omit [Arch] in
theorem phase2_congr {T U : Opd} {α : Type} {f g : Int → Int → Out α} (h : ∀ t u, T.Has t → U.Has u → f t u = g t u)
    (hg : Phase2 T U g) : Phase2 T U f := by
  rcases hg with hg | hg
  · exact Or.inl fun t u ht hu => (h t u ht hu).trans (hg t u ht hu)
  · exact Or.inr fun t u ht hu => by rw [h t u ht hu]; exact hg t u ht hu


omit [Arch] in
theorem shlIn_legal {R : ITy} (t u : Int) : shlIn R t u ≠ .fault .illFormed := by
  unfold shlIn
  refine orThrow_legal fun a => orThrow_legal fun b => ?_
  split_ifs <;> nofun

theorem shrIn_legal {R : ITy} (t u : Int) : shrIn R t u ≠ .fault .illFormed := by
  unfold shrIn
  refine orThrow_legal fun a => orThrow_legal fun b => ?_
  split_ifs <;> nofun

theorem op_phase {pp : PP} (hpp : pp.Wf) {p : EP} (hp : p.ae = .throw ∨ p.ae = .trap) {o : Op2} {T U : Opd} (hT : T.Wf)
    (hU : U.Wf) (hc : OpCovered pp p T U o) : Phase2 T U (o.safeVal pp p T U) := by
  rcases hp with hp | hp
  swap
  · rcases op_trap hpp hp hT hU hc with h | ⟨S, _, _, _, h⟩
    · exact Or.inl h
    · exact Or.inr fun t u ht hu => by obtain ⟨v, h, _⟩ := h t u ht hu; rw [h]; nofun
  cases o with
  | ar a =>
    show Phase2 T U (arith pp p a T U)
    rcases PP.result_total hpp (op := a.binOp) (by cases a <;> decide) hT hU with ⟨R, e, hR⟩ | e
    · unfold arith
      rw [e]
      simp only [ret_bind]
      cases a with
      | add => exact phase2_if (fun t u ht hu => runAdd_throw hp hT hU ht hu) fun t u => exactIn_legal _ _ _
      | sub => exact phase2_if (fun t u ht hu => runSub_throw hp hT hU ht hu) fun t u => exactIn_legal _ _ _
      | mul =>
        by_cases hx : staticExc opMul R T U = true
        · by_cases l : LitsOk R T U
          · exact Or.inr fun t u ht hu => by
              show runOp opMul p R T U t u ≠ _
              rw [runMul_throw hp hR hT hU ht hu, if_pos hx, if_pos l]; exact exactIn_legal _ _ _
          · exact Or.inl fun t u ht hu => by
              show runOp opMul p R T U t u = _
              rw [runMul_throw hp hR hT hU ht hu, if_pos hx, if_neg l]
        · exact Or.inr fun t u ht hu => by
            show runOp opMul p R T U t u ≠ _
            rw [runMul_throw hp hR hT hU ht hu, if_neg hx]; nofun
      | div =>
        obtain ⟨_, f2, hw⟩ := hc R e
        obtain ⟨B, eB, _, _, h⟩ := runDiv_throw hp hR hT hU (fun _ => f2)
        refine phase2_if (fun t u ht hu => h ht hu ?_) fun t u => quotIn_legal _ _
        rcases hw with hw | hw
        · rw [tempBase_self hR hw.1 hw.2] at eB; exact Or.inl (Out.ret.inj eB).symm
        · right
          by_cases h0 : u = 0
          · rw [h0, Int.tdiv_zero]; exact ITy.in_zero R
          · exact hw t u ht hu h0
      | mod =>
        obtain ⟨hw, hm⟩ := hc.1 R e
        obtain ⟨B, eB, hs, hl, h⟩ := runMod_throw hp hR hT hU
          (fun _ => ⟨fits_of_digits hT hw.1, fits_of_digits hU hw.2⟩)
        rw [tempBase_self hR hw.1 hw.2] at eB
        obtain rfl := Out.ret.inj eB
        exact phase2_if (fun t u ht hu => h ht hu (fun g => hm g.1 (g.2.1 ▸ ht)) (fun _ g => hm g.1 (g.2.1 ▸ ht))
          (fun g _ => tmod_in g)) fun t u => remIn_legal _ _
    · exact Or.inl fun t u ht hu => by unfold arith; rw [e]; rfl
  | bit b =>
    show Phase2 T U (bitwise pp b T U)
    rcases result_st pp b.binOp T U with ⟨R, e⟩ | e
    · exact Or.inr fun t u ht hu => by
        obtain ⟨v, S, h1, _⟩ := bit_covered hT hU e (hc R e) ht hu
        rw [h1]; nofun
    · exact Or.inl fun t u ht hu => by unfold bitwise; rw [e]; rfl
  | shl =>
    obtain ⟨hi, hc⟩ := hc
    show Phase2 T U (shl pp p T U)
    rcases shl_policy hpp hp hT hU hi with hq | hq
    swap
    · exact Or.inl fun t u _ _ => hq t u
    refine phase2_congr hq ?_
    clear hq hi
    have hi : p.strictShift.idb = .throw := rfl
    replace hp : p.strictShift.ae = .throw := hp
    generalize p.strictShift = p at hi hp ⊢
    rcases PP.result_shift hpp (Or.inl rfl) hT hU with ⟨R, e, hR⟩ | e
    · unfold shl
      rw [e]
      simp only [ret_bind]
      obtain ⟨ri, e', p1, p2, h1, _⟩ := shl_res hR hT hU
      by_cases hx : staticExc opShl R T U = true
      · refine phase2_if (c := ¬ LitsOk R T U) (g := shlIn R) (fun t u ht hu => ?_) fun t u => shlIn_legal _ _
        rw [runOp_cases (op := opShl) e', if_pos hx, checkedShl_throw hR hp hi hT ht hU hu]
        by_cases h : LitsOk R T U
        · rw [if_pos h, if_neg (not_not_intro h)]
        · rw [if_neg h, if_pos h]
      · exact Or.inr fun t u ht hu => by
          show runOp opShl p R T U t u ≠ _
          rw [(shl_static hR hT hU (hc R e) hx ht hu).1]; nofun
    · exact Or.inl fun t u ht hu => by unfold shl; rw [e]; rfl
  | shr =>
    obtain ⟨hi, hc⟩ := hc
    show Phase2 T U (shr pp p T U)
    rcases shr_policy hpp hp hT hU hi with hq | hq
    swap
    · exact Or.inl fun t u _ _ => hq t u
    refine phase2_congr hq ?_
    clear hq hi
    have hi : p.strictShift.idb = .throw := rfl
    replace hp : p.strictShift.ae = .throw := hp
    generalize p.strictShift = p at hi hp ⊢
    rcases PP.result_shift hpp (Or.inr rfl) hT hU with ⟨R, e, hR⟩ | e
    · unfold shr
      rw [e]
      simp only [ret_bind]
      unfold runShr
      rcases shr_res hR hT hU with e' | ⟨ri, e', p1, p2, _, h2⟩
      · rw [e']; exact Or.inl fun _ _ _ _ => rfl
      rw [e', castItv_eq hT, castItv_eq hU]
      simp only [Out.ret_bind]
      split
      · refine phase2_if (c := ¬ LitsOk R T U) (g := shrIn R) (fun t u ht hu => ?_) fun t u => shrIn_legal _ _
        rw [checkedShr_throw hR hp hi hT ht hU hu]
        by_cases h : LitsOk R T U
        · rw [if_pos h, if_neg (not_not_intro h)]
        · rw [if_neg h, if_pos h]
      · rename_i hx
        exact Or.inr fun t u ht hu => by
          show runPlain opShr R t u ≠ _
          rw [(shr_static hR hT hU (hc R e).1 e' hx ht hu ((hc R e).2 u hu)).1]; nofun
    · exact Or.inl fun t u ht hu => by unfold shr; rw [e]; rfl

theorem pbin_phase {N : Names} (hN : Careful N) {o : Op2} {T U : PTy N} (hT : PTy.Wf T) (hU : PTy.Wf U)
    (hc : BinCovered o T U) : Phase2 T.opd U.opd (pBinVal o T U) := by
  obtain ⟨hs, hc⟩ := hc
  unfold pBinVal
  simp only [isSafe_or hs, if_true]
  rcases common_st T.pr U.pr with ⟨q, eq⟩ | eq
  · rcases common_st T.ex U.ex with ⟨e, ee⟩ | ee
    · rw [eq, ee]
      simp only [ret_bind]
      exact op_phase (hN.2 q) (hN.1 e) hT.1 hU.1 (hc q e eq ee)
    · rw [eq, ee]; exact Or.inl fun _ _ _ _ => rfl
  · rw [eq]; exact Or.inl fun _ _ _ _ => rfl

theorem validate_phase {R : ITy} {mn mx : Int} {p : EP} {T : Opd} (hmn : R.In mn) (hmx : R.In mx) (hT : T.Wf) :
    Phase1 T (validate R mn mx p T) := by
  by_cases h1 : exclStatic R mn mx T = true
  · exact Or.inl fun t ht => by rw [validate_eq hmn hmx hT ht, if_pos h1]
  by_cases h2 : inclStatic R mn mx T = true
  · exact Or.inr fun t ht => by rw [validate_eq hmn hmx hT ht, if_neg h1, if_pos h2]; nofun
  by_cases hp : p.ae = .trap
  · exact Or.inl fun t ht => by rw [validate_eq hmn hmx hT ht, if_neg h1, if_neg h2, hp]
  · refine Or.inr fun t ht => ?_
    rw [validate_eq hmn hmx hT ht, if_neg h1, if_neg h2]
    cases hq : p.ae <;> first | exact absurd hq hp | (dsimp only; split_ifs <;> nofun)

theorem conv_phase {N : Names} {S T : PTy N} (hT : PTy.Wf T) (hc : ConvCovered S T) :
    Phase1 T.opd (convTo S T) := by
  obtain ⟨hS, hl, _⟩ := hc
  unfold convTo
  rcases hl with hk | hk
  · rw [hk]
    dsimp only
    rcases hkT : T.opd.kind with _ | _ | b
    · exact Or.inr fun _ _ => nofun
    · dsimp only
      unfold toBuiltin
      split
      · exact Or.inl fun _ _ => rfl
      · rcases validate_phase (p := T.ep) S.opd.base.in_min S.opd.base.in_max (wf_builtin hT.1.1) with h | h
        · exact Or.inl fun t ht => h t (hT.1.has_in ht)
        · exact Or.inr fun t ht => h t (hT.1.has_in ht)
    · dsimp only
      by_cases h : litToBuiltin T.ep S.opd.base T.opd = .fault .illFormed
      · exact Or.inl fun _ _ => h
      · exact Or.inr fun _ _ => h
  · rw [hk]
    dsimp only
    by_cases h : T = S
    · simp only [if_pos h]; exact Or.inr fun _ _ => nofun
    · simp only [if_neg h]
      exact validate_phase hS.1.2.1 hS.1.2.2.1 hT.1

theorem neg_phase {N : Names} (hN : Careful N) {T : PTy N} (hT : PTy.Wf T) (hs : T.isSafe = true) :
    Phase1 T.opd (negValOf T) := by
  unfold negValOf
  rcases hk : T.opd.kind with _ | _ | b
  · simp [PTy.isSafe, hk] at hs
  · dsimp only
    have z : (PTy.builtin tInt : PTy N).opd.Has 0 := ITy.in_zero tInt
    rcases pbin_phase hN (o := .ar .sub) (pbuiltin_wf tInt_ok) hT ⟨Or.inr hs, fun q e _ _ => trivial⟩ with h | h
    · exact Or.inl fun t ht => h 0 t z ht
    · exact Or.inr fun t ht => h 0 t z ht
  · dsimp only
    cases litMinus T.opd with
    | ret L => exact Or.inr fun _ _ => nofun
    | thrown e => exact Or.inr fun _ _ => nofun
    | fault k => cases k <;> first | exact Or.inl fun _ _ => rfl | exact Or.inr fun _ _ => nofun

theorem lt_phase {p : EP} (hp : p.ae = .throw) {R : ITy} {T U : Opd} (hT : T.Wf) (hU : U.Wf) :
    Phase2 T U (runLt p R T U) := by
  refine phase2_if (fun t u ht hu => runLt_throw hp hT hU ht hu) fun t u => ?_
  split
  · nofun
  · exact cmpIn_legal _ _ _

theorem eq_phase {p : EP} (hp : p.ae = .throw) {R : ITy} {T U : Opd} (hT : T.Wf) (hU : U.Wf) :
    Phase2 T U (runEq p R T U) :=
  phase2_if (fun _ _ ht hu => runEq_throw hp hT hU ht hu) fun _ _ => cmpIn_legal _ _ _

omit [Arch] in
theorem phase_not {T U : Opd} {val : Int → Int → Out Bool} (h : Phase2 T U val) :
    Phase2 T U (fun t u => do let b ← val t u; .ret (!b)) := by
  rcases h with h | h
  · exact Or.inl fun t u ht hu => by dsimp only; rw [h t u ht hu]; rfl
  · refine Or.inr fun t u ht hu => ?_
    have := h t u ht hu
    dsimp only
    cases hv : val t u with
    | ret b => nofun
    | thrown e => nofun
    | fault k => rw [hv] at this; intro h'; exact this h'

omit [Arch] in
theorem phase_swap {T U : Opd} {α : Type} {val : Int → Int → Out α} (h : Phase2 T U val) :
    Phase2 U T (fun t u => val u t) := by
  rcases h with h | h
  · exact Or.inl fun t u ht hu => h u t hu ht
  · exact Or.inr fun t u ht hu => h u t hu ht

theorem cmp_phase {pp : PP} (hpp : pp.Wf) {p : EP} (hp : p.ae = .throw ∨ p.ae = .trap) (o : Rel) {T U : Opd} (hT : T.Wf)
    (hU : U.Wf) : Phase2 T U (compare pp p o T U) := by
  rcases hp with hp | hp
  swap
  · rcases C30_compare pp hpp p hp o T U hT hU with h | h
    · exact Or.inl h
    · exact Or.inr fun t u ht hu => by rw [h t u ht hu]; nofun
  unfold compare
  rcases result_st pp .cmp T U with ⟨R, e⟩ | e <;> rcases result_st pp .cmp U T with ⟨R', e'⟩ | e' <;>
    cases o <;> dsimp only <;> simp only [e, e', ret_bind]
  all_goals first
    | exact Or.inl fun _ _ _ _ => rfl
    | exact lt_phase hp hT hU
    | exact phase_swap (lt_phase hp hU hT)
    | exact eq_phase hp hT hU
    | exact phase_not (lt_phase hp hT hU)
    | exact phase_not (phase_swap (lt_phase hp hU hT))
    | exact phase_not (eq_phase hp hT hU)

theorem pcmp_phase {N : Names} (hN : Careful N) (o : Rel) {T U : PTy N} (hT : PTy.Wf T) (hU : PTy.Wf U)
    (hs : CmpCovered T U) : Phase2 T.opd U.opd (pCompare o T U) := by
  rcases cmp_cases hs with hs | ⟨_, _, h⟩
  case inr => exact Or.inr fun t u ht hu => by rw [h o t u ht hu]; nofun
  unfold pCompare
  simp only [isSafe_or hs, if_true]
  rcases common_st T.pr U.pr with ⟨q, eq⟩ | eq
  · rcases common_st T.ex U.ex with ⟨e, ee⟩ | ee
    · rw [eq, ee]
      simp only [ret_bind]
      exact cmp_phase (hN.2 q) (hN.1 e) o hT.1 hU.1
    · rw [eq, ee]; exact Or.inl fun _ _ _ _ => rfl
  · rw [eq]; exact Or.inl fun _ _ _ _ => rfl

theorem boolRun_phase (p : EP) : (∀ t, boolRun p t = .fault .illFormed) ∨ (∀ t, boolRun p t ≠ .fault .illFormed) := by
  unfold boolRun
  cases p.ae <;> dsimp only
  case throw => right; intro t; split_ifs <;> nofun
  case ignore => right; intro t; split_ifs <;> nofun
  case user f => right; intro t; split_ifs <;> nofun
  case trap => left; intro t; rfl

theorem truth_phase {N : Names} {T : PTy N} (hT : PTy.Wf T) : Phase1 T.opd (fun t => toBool T.ep T.opd t) := by
  rcases hk : T.opd.kind with _ | _ | b
  · right; intro t _; dsimp only; unfold toBool; rw [hk]; nofun
  · rcases boolRun_phase T.ep with h | h
    · left; intro t ht; dsimp only; rw [toBool_safe hT.1 hk ht]; exact h t
    · right; intro t ht; dsimp only; rw [toBool_safe hT.1 hk ht]; exact h t
  · unfold Phase1
    simp only [toBool_lit hT.1 hk]
    by_cases g : (if T.opd.lo = 0 ∨ T.opd.lo = 1 then Out.ret (decide (T.opd.lo ≠ 0))
      else if 1 < T.opd.lo ∨ b = false then .fault .illFormed else boolRun T.ep T.opd.lo) = .fault .illFormed
    · exact Or.inl fun _ _ => g
    · exact Or.inr fun _ _ => g


/-- reading: rejected always or never -/
theorem input_phase {p : EP} (hp : p.ae = .throw ∨ p.ae = .trap) {T : Opd} (hT : T.Wf) (hc : T.base.lg ≠ 0) :
    (∀ old s, T.Has old → (input p T old s).1 = .fault .illFormed) ∨
    (∀ old s, T.Has old → (input p T old s).1 ≠ .fault .illFormed) := by
  rcases hp with hp | hp
  swap
  · left; intro old s _; unfold input; rw [inputStatic_trap hp hT]
  rcases inputStatic_cases hp hT with e | ⟨e, _⟩
  · left; intro old s _; unfold input; rw [e]
  right
  intro old s ho
  unfold input
  rw [e]; dsimp only
  have hcc : isCharTy T.base = false := by unfold isCharTy; simpa using hc
  rw [hcc]
  simp only [Bool.false_eq_true, if_false]
  have hm := extract_in (s := inputPrep T s) (hT.has_in ho)
  unfold inputInt
  rcases hx : (inputPrep T s).extract T.base id old with ⟨m, s'⟩
  rw [hx] at hm
  dsimp only at hm ⊢
  split
  · rw [dispatch_throw hp]; nofun
  · have hx : ¬ exclStatic T.base T.lo T.hi (Opd.ofBuiltin T.base) = true := by
      intro h
      have h := exclStatic_sound hT.2.1 hT.2.2.1 h
      change T.hi < T.base.min ∨ T.base.max < T.lo at h
      have := hT.2.1.2; have := hT.2.2.1.1
      omega
    have hv : validate T.base T.lo T.hi p (Opd.ofBuiltin T.base) m ≠ .fault .illFormed := by
      rw [validate_eq hT.2.1 hT.2.2.1 (wf_builtin hT.1) hm, if_neg hx, hp]
      split
      · nofun
      · dsimp only; split <;> nofun
    cases h : validate T.base T.lo T.hi p (Opd.ofBuiltin T.base) m with
    | ret _ => nofun
    | thrown _ => nofun
    | fault k => dsimp only; intro g; cases g; exact hv h

end
end Verif
