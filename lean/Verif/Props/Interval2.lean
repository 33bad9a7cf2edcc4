import Verif.Proofs.SafeDiv
import Verif.Props.Extended2

/-!
Property C18, continued: the precondition of interval division, and interval remainder.
-/

namespace Verif.Props
open Spec
section
variable [Arch]

private theorem excludes_zero {R : ITy} {u : Itv CR} (su : Sided R u.l u.u) (dl : Definite u.l) (du : Definite u.u) :
    (u.excludesPt (crCmp R) (.ok 0)).toBool = false ↔ Between R u.l u.u 0 := by
  obtain ⟨l, h⟩ := u
  obtain ⟨p1, p2, n1, n2⟩ := su
  dsimp only at *
  show ((crLt R (.ok 0) l).or (crLt R h (.ok 0))).toBool = false ↔ LowerOk R l 0 ∧ UpperOk R h 0
  have el : (∃ b, crLt R (.ok 0) l = T3.ofBool b ∧ (b = false ↔ LowerOk R l 0)) := by
    rcases dl with ⟨v, rfl⟩ | rfl | rfl
    · exact ⟨_, crLt_ok R.in_zero p1, by simp [LowerOk]⟩
    · exact absurd rfl n1
    · exact ⟨false, rfl, by simp [LowerOk]⟩
  have eu : (∃ b, crLt R h (.ok 0) = T3.ofBool b ∧ (b = false ↔ UpperOk R h 0)) := by
    rcases du with ⟨v, rfl⟩ | rfl | rfl
    · exact ⟨_, crLt_ok p2 R.in_zero, by simp [UpperOk]⟩
    · exact ⟨false, rfl, by simp [UpperOk]⟩
    · exact absurd rfl n2
  obtain ⟨b, e1, h1⟩ := el
  obtain ⟨c, e2, h2⟩ := eu
  rw [e1, e2, ← h1, ← h2]
  cases b <;> cases c <;> decide

private theorem corners_total {R : ITy} {op : CR → CR → Out CR} {t u : Itv CR}
    (ho : ∀ c d, Proper R c → Proper R d → ∃ e, op c d = .ret e ∧ Proper R e) (ptl : Proper R t.l) (ptu : Proper R t.u)
    (pul : Proper R u.l) (puu : Proper R u.u) : ∃ i, corners R op t u = .ret i ∧ Proper R i.l ∧ Proper R i.u := by
  obtain ⟨c1, e1, p1⟩ := ho _ _ ptl pul
  obtain ⟨c2, e2, p2⟩ := ho _ _ ptl puu
  obtain ⟨c3, e3, p3⟩ := ho _ _ ptu pul
  obtain ⟨c4, e4, p4⟩ := ho _ _ ptu puu
  have hp : ∀ c ∈ [c1, c2, c3, c4], Proper R c := by
    intro c hc; simp at hc; rcases hc with rfl | rfl | rfl | rfl <;> assumption
  obtain ⟨m, M, e, hm, hM, _⟩ := minmax_cr c1 [c2, c3, c4] hp
  refine ⟨⟨m, M⟩, ?_, hp _ hm, hp _ hM⟩
  unfold corners minmax4
  rw [e1, e2, e3, e4]
  show (match minmax (crLtB R) [c1, c2, c3, c4] with
    | .ret p => Out.ret (⟨p.1, p.2⟩ : Itv CR) | .thrown e => .thrown e | .fault k => .fault k) = _
  rw [e]

/-- The precondition of interval division and remainder: the assertion fails exactly if zero lies in the divisor interval; otherwise
they return. (The dividend may have any ends.) -/
theorem C18_precondition (R : ITy) (t u : Itv CR) (ht : Proper R t.l ∧ Proper R t.u) (su : Sided R u.l u.u)
    (dl : Definite u.l) (du : Definite u.u) :
    (Between R u.l u.u 0 → itvDiv R t u = .fault .assertFail ∧ itvMod R t u = .fault .assertFail) ∧
    (¬ Between R u.l u.u 0 → (∃ i, itvDiv R t u = .ret i ∧ Proper R i.l ∧ Proper R i.u) ∧
      ∃ i, itvMod R t u = .ret i ∧ Proper R i.l ∧ Proper R i.u) := by
  rw [← excludes_zero su dl du]
  unfold itvDiv itvMod
  cases hb : (u.excludesPt (crCmp R) (.ok 0)).toBool
  · exact ⟨fun _ => ⟨rfl, rfl⟩, fun h => absurd rfl h⟩
  · refine ⟨(fun h => nomatch h), fun _ => ⟨?_, ?_⟩⟩
    · exact corners_total (fun c d pc pd => let ⟨e, h1, h2, _⟩ := crDiv_total pc pd; ⟨e, h1, h2⟩) ht.1 ht.2 su.1 su.2.1
    · exact corners_total (fun c d pc pd => let ⟨e, h1, h2, _⟩ := crMod_total pc pd; ⟨e, h1, h2⟩) ht.1 ht.2 su.1 su.2.1

omit [Arch] in
private theorem tmod_small {x y : Int} (h : x.natAbs < y.natAbs) : x.tmod y = x := by
  have := Int.mul_tdiv_add_tmod x y
  rw [tdiv_eq_zero_of_abs (by omega) (by omega) (by omega) (by omega)] at this
  simpa using this

/-- C18 for %: if every number of the dividend interval is smaller in magnitude than every number of the divisor interval, the
result is exactly the dividend interval, and that contains the remainders. Otherwise the result can be wrong
(`C18_mod_refuted`). -/
theorem C18_mod_partial (R : ITy) (a b c d : Int) (ha : R.In a) (hb : R.In b) (hc : R.In c) (hd : R.In d) (hab : a ≤ b)
    (hcd : c ≤ d) (hs : ∀ x y, a ≤ x → x ≤ b → c ≤ y → y ≤ d → x.natAbs < y.natAbs) :
    itvMod R ⟨.ok a, .ok b⟩ ⟨.ok c, .ok d⟩ = .ret ⟨.ok a, .ok b⟩ ∧
    ∀ x y, a ≤ x → x ≤ b → c ≤ y → y ≤ d → a ≤ x.tmod y ∧ x.tmod y ≤ b := by
  have key : ∀ x y, R.In x → R.In y → x.natAbs < y.natAbs → crMod R (.ok x) (.ok y) = .ret (.ok x) := by
    intro x y hx hy h
    rw [crMod_values hx hy (by rintro rfl; simp at h), if_neg (by rintro ⟨_, rfl, rfl⟩; omega), tmod_small h]
  constructor
  · have e0 : ((⟨.ok c, .ok d⟩ : Itv CR).excludesPt (crCmp R) (.ok 0)).toBool = true := by
      by_contra hn
      have := (excludes_zero (R := R) (u := ⟨.ok c, .ok d⟩) ⟨hc, hd, by simp, by simp⟩ (Or.inl ⟨_, rfl⟩) (Or.inl ⟨_, rfl⟩)).1
        (by simpa using hn)
      have := hs a 0 le_rfl hab this.1 this.2
      simp at this
    unfold itvMod corners
    rw [e0]
    dsimp only
    rw [key a c ha hc (hs a c le_rfl hab le_rfl hcd), key a d ha hd (hs a d le_rfl hab hcd le_rfl),
      key b c hb hc (hs b c hab le_rfl le_rfl hcd), key b d hb hd (hs b d hab le_rfl hcd le_rfl)]
    show minmax4 R (.ok a) (.ok a) (.ok b) (.ok b) = _
    have l1 : crLtB R (.ok a) (.ok a) = false := by unfold crLtB; rw [crLt_ok ha ha]; simp [T3.ofBool, T3.toBool]
    have l2 : crLtB R (.ok b) (.ok a) = false := by
      unfold crLtB; rw [crLt_ok hb ha, decide_eq_false (by omega)]; rfl
    have l3 : crLtB R (.ok b) (.ok b) = false := by unfold crLtB; rw [crLt_ok hb hb]; simp [T3.ofBool, T3.toBool]
    have l4 : crLtB R (.ok a) (.ok b) = decide (a < b) := by
      unfold crLtB; rw [crLt_ok ha hb]; cases decide (a < b) <;> rfl
    have l5 : decide (a < b) = false → b = a := fun h => by have := of_decide_eq_false h; omega
    show Out.ret (⟨(minmaxStep (crLtB R) (minmaxStep (crLtB R) (minmaxStep (crLtB R) (minmaxStep (crLtB R) (.ok a, .ok a) (.ok a))
      (.ok a)) (.ok b)) (.ok b)).1, _⟩ : Itv CR) = _
    have s1 : minmaxStep (crLtB R) (.ok a, .ok a) (.ok a) = (.ok a, .ok a) := by simp [minmaxStep, l1]
    have s2 : minmaxStep (crLtB R) (.ok a, .ok a) (.ok b) = (.ok a, .ok b) := by
      simp only [minmaxStep, l2, l4]
      cases h : decide (a < b)
      · simp [l5 h]
      · simp
    have s3 : minmaxStep (crLtB R) (.ok a, .ok b) (.ok b) = (.ok a, .ok b) := by simp [minmaxStep, l2, l3]
    simp only [List.foldl_cons, List.foldl_nil, s1, s2, s3]
  · intro x y h1 h2 h3 h4
    rw [tmod_small (hs x y h1 h2 h3 h4)]
    exact ⟨h1, h2⟩

end

section
attribute [local instance] lp64

example : Sided i8 (.err .negative_overflow_error) (.ok 3) ∧ Between i8 (.err .negative_overflow_error) (.ok 3) 0 ∧
    itvDiv i8 ⟨.ok 1, .ok 2⟩ ⟨.err .negative_overflow_error, .ok 3⟩ = .fault .assertFail ∧
    ¬ Between i8 (.err .negative_overflow_error) (.ok (-3)) 0 ∧
    itvDiv i8 ⟨.ok 10, .ok 20⟩ ⟨.ok (-100), .ok (-3)⟩ = .ret ⟨.ok (-6), .ok 0⟩ := by decide

example : itvMod i8 ⟨.ok (-5), .ok 7⟩ ⟨.ok 8, .ok 100⟩ = .ret ⟨.ok (-5), .ok 7⟩ :=
  (C18_mod_partial i8 (-5) 7 8 100 (by decide) (by decide) (by decide) (by decide) (by decide) (by decide)
    (by intros; omega)).1

end
end Verif.Props
