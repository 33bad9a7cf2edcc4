import Verif.Proofs.Promotion

/-!
Lemmas on the type of a result: the value lies within the bounds of the advertised type.
-/

namespace Verif
open Spec
section
variable [Arch]

omit [Arch] in
theorem exactIn_ret {R : ITy} {t u v w : Int} (h : exactIn R t u v = .ret w) :
    w = v ∧ R.In t ∧ R.In u ∧ R.In v := by
  unfold exactIn at h
  split at h
  · cases h
  · cases h
  · rename_i a b ha hb
    unfold exactOr at h
    split_ifs at h
    · cases h
    · cases h
    · cases h
      exact ⟨rfl, (castTo_ok ha).2, (castTo_ok hb).2, ⟨by omega, by omega⟩⟩

omit [Arch] in
theorem quotIn_ret {R : ITy} {t u w : Int} (h : quotIn R t u = .ret w) :
    w = t.tdiv u ∧ R.In t ∧ R.In u ∧ u ≠ 0 ∧ R.In w := by
  unfold quotIn at h
  split at h
  · cases h
  · cases h
  · rename_i a b ha hb
    have ht := (castTo_ok ha).2; have hu := (castTo_ok hb).2
    split_ifs at h with h1 h2
    · cases h
      refine ⟨rfl, ht, hu, h1, ?_⟩
      by_cases hov : R.signed = true ∧ u = -1 ∧ t = R.min
      · exfalso; apply h2
        rw [hov.2.1, hov.2.2]
        have e := ITy.min_eq R; rw [hov.1] at e; simp at e
        rw [show (-1 : Int) = -(1 : Int) from rfl, Int.tdiv_neg, Int.tdiv_one]
        omega
      · exact tdiv_in ht hu h1 hov

omit [Arch] in
theorem remIn_ret {R : ITy} {t u w : Int} (h : remIn R t u = .ret w) :
    w = t.tmod u ∧ R.In t ∧ R.In u ∧ u ≠ 0 ∧ R.In w := by
  unfold remIn at h
  split at h
  · cases h
  · cases h
  · rename_i a b ha hb
    have ht := (castTo_ok ha).2; have hu := (castTo_ok hb).2
    split_ifs at h with h1
    · cases h; exact ⟨rfl, ht, hu, h1, tmod_in ht⟩

/-- a policy that does not go on after an arithmetic error -/
def Stops (p : EP) : Prop := p.ae = .throw ∨ p.ae = .trap

/-- the value of `+`, `-`, `*` is the exact one and is representable in the result type -/
theorem runAdd_ret {p : EP} (hp : Stops p) {R : ITy} {T U : Opd} {t u v : Int} (hT : T.Wf) (hU : U.Wf)
    (ht : T.Has t) (hu : U.Has u) (h : runOp opAdd p R T U t u = .ret v) : v = t + u ∧ R.In v := by
  rcases hp with hp | hp
  · rw [runAdd_throw hp hT hU ht hu] at h
    split at h
    · cases h
    · obtain ⟨rfl, _, _, k⟩ := exactIn_ret h; exact ⟨rfl, k⟩
  · rw [runAdd_trap hp hT hU ht hu] at h
    split at h
    · cases h
    · rename_i g; cases h
      exact ⟨rfl, (add_static hT hU (by simpa using g) ht hu).2.2⟩

theorem runSub_ret {p : EP} (hp : Stops p) {R : ITy} {T U : Opd} {t u v : Int} (hT : T.Wf) (hU : U.Wf)
    (ht : T.Has t) (hu : U.Has u) (h : runOp opSub p R T U t u = .ret v) : v = t - u ∧ R.In v := by
  rcases hp with hp | hp
  · rw [runSub_throw hp hT hU ht hu] at h
    split at h
    · cases h
    · obtain ⟨rfl, _, _, k⟩ := exactIn_ret h; exact ⟨rfl, k⟩
  · rw [runSub_trap hp hT hU ht hu] at h
    split at h
    · cases h
    · rename_i g; cases h
      exact ⟨rfl, (sub_static hT hU (by simpa using g) ht hu).2.2⟩

theorem runMul_ret {p : EP} (hp : Stops p) {R : ITy} (hR : R.Ok) {T U : Opd} {t u v : Int} (hT : T.Wf) (hU : U.Wf)
    (ht : T.Has t) (hu : U.Has u) (h : runOp opMul p R T U t u = .ret v) : v = t * u ∧ R.In v := by
  have key : staticExc opMul R T U = false → R.In (t * u) := by
    intro g
    rcases mul_static hR hT hU g ht hu with k | k | k
    · exact k.2.2
    · have := ht.1; have := ht.2; have := k.1; have := k.2
      obtain rfl : t = 0 := by omega
      rw [Int.zero_mul]; exact R.in_zero
    · have := hu.1; have := hu.2; have := k.1; have := k.2
      obtain rfl : u = 0 := by omega
      rw [Int.mul_zero]; exact R.in_zero
  rcases hp with hp | hp
  · rw [runMul_throw hp hR hT hU ht hu] at h
    split at h
    · split at h
      · obtain ⟨rfl, _, _, k⟩ := exactIn_ret h; exact ⟨rfl, k⟩
      · cases h
    · rename_i g; cases h
      exact ⟨rfl, key (by simpa using g)⟩
  · rw [runMul_trap hp hR hT hU ht hu] at h
    split at h
    · cases h
    · rename_i g; cases h
      exact ⟨rfl, key (by simpa using g)⟩

/-- a result type made from an interval that holds a value -/
theorem resTy_has {f : ITy → Itv CR → Itv CR → Out (Itv CR)} {R : ITy} (hR : R.Ok) {T U : Opd} {ri : Itv CR}
    (e : resItv f R T U = .ret ri) (p1 : Proper R ri.l) (p2 : Proper R ri.u) {v : Int} (hv : Held ri v)
    (hi : R.In v) :
    ∃ S, resTy f R T U = .ret S ∧ S.Wf ∧ S.kind = .safe ∧ S.base = R ∧ S.Has v := by
  have b := hv.endOr hi
  have i1 : R.In (endOr R.min ri.l) := by
    unfold endOr; split
    · rename_i w h; rw [h] at p1; exact p1
    · exact R.in_min
  have i2 : R.In (endOr R.max ri.u) := by
    unfold endOr; split
    · rename_i w h; rw [h] at p2; exact p2
    · exact R.in_max
  refine ⟨Opd.range R (endOr R.min ri.l) (endOr R.max ri.u), ?_, ?_, rfl, rfl, b⟩
  · unfold resTy; rw [e]; rfl
  · refine ⟨hR, i1, i2, ?_, ?_, ?_⟩
    · show endOr R.min ri.l ≤ endOr R.max ri.u
      omega
    · intro h; cases h
    · intro b h; cases h

/-- a literal operand converts when its value is representable -/
theorem litOk_value {R : ITy} {T : Opd} (hT : T.Wf) {t : Int} (ht : T.Has t) (hi : R.In t) : litOk R T = true := by
  by_cases hk : ∃ b, T.kind = .lit b
  · obtain ⟨b, hb⟩ := hk
    have e := hT.2.2.2.2.2 b hb
    have h1 := ht.1; have h2 := ht.2
    have e1 : T.lo = t := by omega
    have e2 : T.hi = t := by omega
    exact litOk_in hT (by rw [e1]; exact hi) (by rw [e2]; exact hi)
  · exact litOk_not_lit (fun b hb => hk ⟨b, hb⟩)

theorem litsOk_value {R : ITy} {T U : Opd} (hT : T.Wf) (hU : U.Wf) {t u : Int} (ht : T.Has t) (hu : U.Has u)
    (h1 : R.In t) (h2 : R.In u) : LitsOk R T U := ⟨litOk_value hT ht h1, litOk_value hU hu h2⟩

/-- `+`, `-`, `*` return the exact result when operands and result are representable -/
theorem runAdd_in {p : EP} (hp : p.ae = .throw) {R : ITy} {T U : Opd} {t u : Int} (hT : T.Wf) (hU : U.Wf)
    (ht : T.Has t) (hu : U.Has u) (h1 : R.In t) (h2 : R.In u) (h3 : R.In (t + u)) :
    runOp opAdd p R T U t u = .ret (t + u) := by
  rw [runAdd_throw hp hT hU ht hu, if_neg (fun h => h.2 (litsOk_value hT hU ht hu h1 h2)), exactIn_of_in h1 h2 h3]

theorem runSub_in {p : EP} (hp : p.ae = .throw) {R : ITy} {T U : Opd} {t u : Int} (hT : T.Wf) (hU : U.Wf)
    (ht : T.Has t) (hu : U.Has u) (h1 : R.In t) (h2 : R.In u) (h3 : R.In (t - u)) :
    runOp opSub p R T U t u = .ret (t - u) := by
  rw [runSub_throw hp hT hU ht hu, if_neg (fun h => h.2 (litsOk_value hT hU ht hu h1 h2)), exactIn_of_in h1 h2 h3]

theorem runMul_in {p : EP} (hp : p.ae = .throw) {R : ITy} (hR : R.Ok) {T U : Opd} {t u : Int} (hT : T.Wf) (hU : U.Wf)
    (ht : T.Has t) (hu : U.Has u) (h1 : R.In t) (h2 : R.In u) (h3 : R.In (t * u)) :
    runOp opMul p R T U t u = .ret (t * u) := by
  rw [runMul_throw hp hR hT hU ht hu, if_pos (litsOk_value hT hU ht hu h1 h2), exactIn_of_in h1 h2 h3]
  split <;> rfl

omit [Arch] in
theorem cWrap_ret_in {R : ITy} {x v : Int} (h : cWrap R x = .ret v) : R.In v := by
  unfold cWrap at h
  split_ifs at h
  all_goals first | (cases h; assumption) | (cases h; exact conv_in _ _)

end
end Verif
