import Verif.Proofs.SafeOps

/-! Closed forms of the comparison operators of safe types. -/

namespace Verif
open Spec
section
variable [Arch]

/-- some end of the two operand ranges is not representable in `R` -/
def cmpOpen (R : ITy) (T U : Opd) : Bool :=
  itvOpen ⟨castTo R T.lo, castTo R T.hi⟩ || itvOpen ⟨castTo R U.lo, castTo R U.hi⟩

/-- the answer is already decided at compile time -/
def ltDecided (R : ITy) (T U : Opd) : Bool :=
  ((⟨castTo R T.lo, castTo R T.hi⟩ : Itv CR).lt (crCmp R) ⟨castTo R U.lo, castTo R U.hi⟩).toBool ||
  ((⟨castTo R T.lo, castTo R T.hi⟩ : Itv CR).gt (crCmp R) ⟨castTo R U.lo, castTo R U.hi⟩).toBool

omit [Arch] in
theorem exc_castTo {R : ITy} {x : Int} (h : (castTo R x).exception = false) : R.In x := by
  rcases hc : castTo R x with v | e
  · exact (castTo_ok hc).2
  · have p := castTo_proper (R := R) (x := x)
    rw [hc] at h p; exact absurd h (by simp [CR.exception]; exact p)

omit [Arch] in
theorem cmpOpen_false {R : ITy} {T U : Opd} (h : cmpOpen R T U = false) :
    (R.In T.lo ∧ R.In T.hi) ∧ (R.In U.lo ∧ R.In U.hi) := by
  unfold cmpOpen itvOpen at h
  simp only [Bool.or_eq_false_iff] at h
  exact ⟨⟨exc_castTo h.1.1, exc_castTo h.1.2⟩, ⟨exc_castTo h.2.1, exc_castTo h.2.2⟩⟩

omit [Arch] in
theorem cmpOpen_of_in {R : ITy} {T U : Opd} (h1 : R.In T.lo) (h2 : R.In T.hi) (h3 : R.In U.lo) (h4 : R.In U.hi) :
    cmpOpen R T U = false := by
  unfold cmpOpen itvOpen
  rw [castTo_of_in h1, castTo_of_in h2, castTo_of_in h3, castTo_of_in h4]; rfl

omit [Arch] in
theorem in_between {R : ITy} {T : Opd} (h : R.In T.lo ∧ R.In T.hi) {t : Int} (ht : T.Has t) : R.In t :=
  ⟨by have := h.1.1; have := ht.1; omega, by have := h.2.2; have := ht.2; omega⟩

theorem itvLt_tt {R : ITy} {T U : Opd} {t u : Int} (ht : T.Has t) (hu : U.Has u)
    (h : ((⟨castTo R T.lo, castTo R T.hi⟩ : Itv CR).lt (crCmp R) ⟨castTo R U.lo, castTo R U.hi⟩).toBool = true) :
    t < u := by
  unfold Itv.lt at h
  split_ifs at h with h1 h2
  · have := crLt_tt (castTo_describes T.hi) (castTo_describes U.lo) h1
    have := ht.2; have := hu.1; omega
  · exact absurd h (by decide)
  · exact absurd h (by decide)

theorem itvGt_tt {R : ITy} {T U : Opd} {t u : Int} (ht : T.Has t) (hu : U.Has u)
    (h : ((⟨castTo R T.lo, castTo R T.hi⟩ : Itv CR).gt (crCmp R) ⟨castTo R U.lo, castTo R U.hi⟩).toBool = true) :
    u < t := by
  unfold Itv.gt at h
  split_ifs at h with h1 h2
  · have := crLt_tt (castTo_describes U.hi) (castTo_describes T.lo) h1
    have := ht.1; have := hu.2; omega
  · exact absurd h (by decide)
  · exact absurd h (by decide)

theorem intersect_not {R : ITy} {T U : Opd} (hT : T.lo ≤ T.hi) (hU : U.lo ≤ U.hi) :
    ((⟨castTo R T.lo, castTo R T.hi⟩ : Itv CR).intersect (crCmp R) ⟨castTo R U.lo, castTo R U.hi⟩).not.toBool = false := by
  have k1 : crLt R (castTo R T.hi) (castTo R U.lo) = .tt → T.hi < U.lo :=
    (crLt_sound (castTo_describes T.hi) (castTo_describes U.lo)).1
  have k2 : crLt R (castTo R U.hi) (castTo R T.lo) = .tt → U.hi < T.lo :=
    (crLt_sound (castTo_describes U.hi) (castTo_describes T.lo)).1
  show (((crLt R (castTo R T.hi) (castTo R U.lo)).not).or ((crLt R (castTo R U.hi) (castTo R T.lo)).not)).not.toBool = false
  revert k1 k2
  cases crLt R (castTo R T.hi) (castTo R U.lo) <;> cases crLt R (castTo R U.hi) (castTo R T.lo) <;> intro k1 k2 <;>
    first
    | rfl
    | (have := k1 rfl; have := k2 rfl; omega)

omit [Arch] in
theorem cmpIn_of_in {R : ITy} {t u : Int} {b : Bool} (h1 : R.In t) (h2 : R.In u) : cmpIn R t u b = .ret b := by
  unfold cmpIn; rw [castTo_of_in h1, castTo_of_in h2]

theorem castingHelper_cmp {p : EP} (hp : p.ae = .throw) {R : ITy} {T U : Opd} {t u : Int} (hT : T.Wf)
    (ht : T.Has t) (hU : U.Wf) (hu : U.Has u) (l : LitsOk R T U) {f : Int → Int → Bool} :
    (do let r ← castingHelper p R T U t u; Out.ret (f r.1 r.2)) = cmpIn R t u (f t u) := by
  rw [castingHelper_throw hp hT ht hU hu l.1 l.2]
  unfold cmpIn
  rcases hc : castTo R t with v | e
  · obtain ⟨rfl, _⟩ := castTo_ok hc
    rcases hd : castTo R u with w | e
    · obtain ⟨rfl, _⟩ := castTo_ok hd; rfl
    · rfl
  · rfl

theorem castStatics {p : EP} {R : ITy} {T U : Opd} (hT : T.Wf) (hU : U.Wf) {α : Type} (k : Out α) :
    (do castStatic p R T; castStatic p R U; k) =
      if LitsOk R T U ∧ p.ae ≠ .trap then k else .fault .illFormed := by
  rw [castStatic_eq hT, castStatic_eq hU]
  unfold LitsOk
  by_cases h1 : litOk R T = true <;> by_cases h2 : litOk R U = true <;> by_cases h3 : p.ae = .trap <;> simp [h1, h2, h3]

/-- `<` with a throwing policy -/
theorem runLt_throw {p : EP} (hp : p.ae = .throw) {R : ITy} {T U : Opd} {t u : Int} (hT : T.Wf) (hU : U.Wf)
    (ht : T.Has t) (hu : U.Has u) :
    runLt p R T U t u =
      if cmpOpen R T U = true ∧ ¬ LitsOk R T U then .fault .illFormed
      else if ltDecided R T U then .ret (decide (t < u)) else cmpIn R t u (decide (t < u)) := by
  have hp' : p.ae ≠ .trap := by rw [hp]; decide
  have tin := hT.has_in ht; have uin := hU.has_in hu
  unfold runLt
  rw [castItv_eq hT, castItv_eq hU]
  simp only [Out.ret_bind]
  rw [castStatics hT hU]
  have hd : ∀ k : Out Bool,
      (if ((⟨castTo R T.lo, castTo R T.hi⟩ : Itv CR).lt (crCmp R) ⟨castTo R U.lo, castTo R U.hi⟩).toBool = true then Out.ret true
       else if ((⟨castTo R T.lo, castTo R T.hi⟩ : Itv CR).gt (crCmp R) ⟨castTo R U.lo, castTo R U.hi⟩).toBool = true
        then Out.ret false else k) =
      if ltDecided R T U then .ret (decide (t < u)) else k := by
    intro k
    unfold ltDecided
    by_cases a : ((⟨castTo R T.lo, castTo R T.hi⟩ : Itv CR).lt (crCmp R) ⟨castTo R U.lo, castTo R U.hi⟩).toBool = true
    · have := itvLt_tt ht hu a
      rw [if_pos a, if_pos (by rw [a]; rfl), decide_eq_true this]
    · by_cases b : ((⟨castTo R T.lo, castTo R T.hi⟩ : Itv CR).gt (crCmp R) ⟨castTo R U.lo, castTo R U.hi⟩).toBool = true
      · have := itvGt_tt ht hu b
        rw [if_neg a, if_pos b, if_pos (by rw [b]; simp), decide_eq_false (by omega)]
      · rw [if_neg a, if_neg b, if_neg (by simp [a, b])]
  rw [hd, hd]
  change (if cmpOpen R T U = true then _ else _) = _
  by_cases ho : cmpOpen R T U = true
  · rw [if_pos ho]
    by_cases l : LitsOk R T U
    · rw [if_pos ⟨l, hp'⟩, if_neg (show ¬ (cmpOpen R T U = true ∧ ¬ LitsOk R T U) from fun h => h.2 l),
        castingHelper_cmp hp hT ht hU hu l]
      split_ifs with h
      · rfl
      · unfold cmpIn
        rcases hc : castTo R t with v | e
        · rcases hd : castTo R u with w | e
          · exact congrArg Out.ret (SafeCompare.lessThan_eq (castTo_ok hc).2 (castTo_ok hd).2)
          · rfl
        · rfl
    · rw [if_neg (fun h => l h.1), if_pos ⟨ho, l⟩]
  · obtain ⟨h1, h2⟩ := cmpOpen_false (by simpa using ho)
    have i1 := in_between h1 ht; have i2 := in_between h2 hu
    rw [if_neg ho, if_neg (show ¬ (cmpOpen R T U = true ∧ ¬ LitsOk R T U) from fun h => ho h.1), cmpIn_of_in i1 i2, conv_of_in i1, conv_of_in i2,
      cLt_eq (in_uac_self i1) (in_uac_self i2)]

/-- `==` with a throwing policy -/
theorem runEq_throw {p : EP} (hp : p.ae = .throw) {R : ITy} {T U : Opd} {t u : Int} (hT : T.Wf) (hU : U.Wf)
    (ht : T.Has t) (hu : U.Has u) :
    runEq p R T U t u =
      if cmpOpen R T U = true ∧ ¬ LitsOk R T U then .fault .illFormed
      else cmpIn R t u (decide (t = u)) := by
  have hp' : p.ae ≠ .trap := by rw [hp]; decide
  have tin := hT.has_in ht; have uin := hU.has_in hu
  unfold runEq
  rw [castItv_eq hT, castItv_eq hU]
  simp only [Out.ret_bind]
  rw [castStatics hT hU, intersect_not hT.2.2.2.1 hU.2.2.2.1]
  change (if cmpOpen R T U = true then _ else _) = _
  by_cases ho : cmpOpen R T U = true
  · rw [if_pos ho]
    by_cases l : LitsOk R T U
    · rw [if_pos ⟨l, hp'⟩, if_neg (show ¬ (cmpOpen R T U = true ∧ ¬ LitsOk R T U) from fun h => h.2 l),
        castingHelper_cmp hp hT ht hU hu l]
      simp only [Bool.false_eq_true, if_false]
      unfold cmpIn
      rcases hc : castTo R t with v | e
      · rcases hd : castTo R u with w | e
        · exact congrArg Out.ret (SafeCompare.equal_eq (castTo_ok hc).2 (castTo_ok hd).2)
        · rfl
      · rfl
    · rw [if_neg (fun h => l h.1), if_pos ⟨ho, l⟩]
  · obtain ⟨h1, h2⟩ := cmpOpen_false (by simpa using ho)
    have i1 := in_between h1 ht; have i2 := in_between h2 hu
    rw [if_neg ho, if_neg (show ¬ (cmpOpen R T U = true ∧ ¬ LitsOk R T U) from fun h => ho h.1), cmpIn_of_in i1 i2, conv_of_in i1, conv_of_in i2,
      cEq_eq (in_uac_self i1) (in_uac_self i2)]
    simp

/-- with a trapping policy -/
theorem runLt_trap {p : EP} (hp : p.ae = .trap) {R : ITy} {T U : Opd} {t u : Int} (hT : T.Wf) (hU : U.Wf)
    (ht : T.Has t) (hu : U.Has u) :
    runLt p R T U t u = if cmpOpen R T U then .fault .illFormed else .ret (decide (t < u)) := by
  unfold runLt
  rw [castItv_eq hT, castItv_eq hU]
  simp only [Out.ret_bind]
  rw [castStatics hT hU]
  change (if cmpOpen R T U = true then _ else _) = _
  by_cases ho : cmpOpen R T U = true
  · rw [if_pos ho, if_pos ho, if_neg (fun h => h.2 hp)]
  · rw [if_neg ho, if_neg ho]
    obtain ⟨h1, h2⟩ := cmpOpen_false (by simpa using ho)
    have i1 := in_between h1 ht; have i2 := in_between h2 hu
    split_ifs with a b
    · rw [decide_eq_true (itvLt_tt ht hu a)]
    · rw [decide_eq_false (by have := itvGt_tt ht hu b; omega)]
    · rw [conv_of_in i1, conv_of_in i2, cLt_eq (in_uac_self i1) (in_uac_self i2)]

theorem runEq_trap {p : EP} (hp : p.ae = .trap) {R : ITy} {T U : Opd} {t u : Int} (hT : T.Wf) (hU : U.Wf)
    (ht : T.Has t) (hu : U.Has u) :
    runEq p R T U t u = if cmpOpen R T U then .fault .illFormed else .ret (decide (t = u)) := by
  unfold runEq
  rw [castItv_eq hT, castItv_eq hU]
  simp only [Out.ret_bind]
  rw [castStatics hT hU, intersect_not hT.2.2.2.1 hU.2.2.2.1]
  change (if cmpOpen R T U = true then _ else _) = _
  by_cases ho : cmpOpen R T U = true
  · rw [if_pos ho, if_pos ho, if_neg (fun h => h.2 hp)]
  · rw [if_neg ho, if_neg ho]
    obtain ⟨h1, h2⟩ := cmpOpen_false (by simpa using ho)
    have i1 := in_between h1 ht; have i2 := in_between h2 hu
    rw [conv_of_in i1, conv_of_in i2, cEq_eq (in_uac_self i1) (in_uac_self i2)]; simp

end
end Verif
