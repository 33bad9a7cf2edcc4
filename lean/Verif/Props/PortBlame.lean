import Verif.Props.Refactor
import Verif.Props.Blame

/-!
Properties C83 and C84 for all programs, covered or not: if two versions or two forms of a program end differently, an operation on
operands of the explicit list of C88 is to blame.
-/

namespace Verif.Props
open Spec

/-- on the machine `A`, with policies that throw or trap, a run of `p` that ends without an exception, thrown or caught, within `f`
nested steps; there is no condition on types or operators -/
structure Run (A : Arch) {N : Names} {n : Nat} (Γ : Fin n → PTy N) (p : LStmt N n) (s s' : LState n) (f : Nat) : Prop where
  careful : @Careful A N
  vars : @GoodVars A n N Γ
  proper : @SProper A n N p
  start : Ranged Γ s.st
  ends : @LStmt.exec A n N Γ f p s = some (.ret (), s')
  quiet : s'.caught = s.caught

/-- the run has carried out an operation that is not clean -/
def Run.Blamed (A : Arch) {N : Names} {n : Nat} (Γ : Fin n → PTy N) (p : LStmt N n) (s : LState n) (f : Nat) : Prop :=
  letI := A
  ∃ ev ∈ sEvents Γ f p s, ¬ ev.Clean

/-- more steps do not change a result over the integers -/
theorem iexec_mono {N : Names} {n : Nat} : ∀ (f : Nat) (p : LStmt N n) (s : IState n) (r : Option (IState n)), iexec f p s = some r →
    ∀ g, f ≤ g → iexec g p s = some r
  | 0, p, s, r, h, _, _ => by cases p <;> cases h
  | f + 1, p, s, r, h, 0, hg => by omega
  | f + 1, p, s, r, h, g + 1, hg => by
    have hg : f ≤ g := by omega
    cases p with
    | seq a b =>
      simp only [iexec] at h ⊢
      rcases ha : iexec f a s with _ | _ | s1
      · rw [ha] at h; cases h
      · rw [iexec_mono f a s _ ha g hg]; rw [ha] at h; exact h
      · rw [iexec_mono f a s _ ha g hg]; rw [ha] at h; exact iexec_mono f b s1 r h g hg
    | ite c a b =>
      simp only [iexec] at h ⊢
      rcases hc : icond s.st c with _ | x
      · rw [hc] at h; exact h
      · rw [hc] at h
        cases x
        · exact iexec_mono f b s r h g hg
        · exact iexec_mono f a s r h g hg
    | «while» c a =>
      simp only [iexec] at h ⊢
      rcases hc : icond s.st c with _ | x
      · rw [hc] at h; exact h
      · rw [hc] at h
        cases x
        · exact h
        · dsimp only at h ⊢
          rcases ha : iexec f a s with _ | _ | s1
          · rw [ha] at h; cases h
          · rw [iexec_mono f a s _ ha g hg]; rw [ha] at h; exact h
          · rw [iexec_mono f a s _ ha g hg]; rw [ha] at h; exact iexec_mono f (.while c a) s1 r h g hg
    | tryCatch a b => exact iexec_mono f a s r h g hg
    | skip => exact h
    | assign => exact h
    | opAssign => exact h
    | inc => exact h
    | dec => exact h
    | input => exact h
    | output => exact h

private theorem run_int {A : Arch} {N : Names} {n : Nat} {Γ : Fin n → PTy N} {p : LStmt N n} {s s' : LState n} {f : Nat}
    (h : Run A Γ p s s' f) (hb : ¬ Run.Blamed A Γ p s f) : iexec f p (abst s) = some (some (abst s')) := by
  let _ := A
  unfold Run.Blamed at hb
  push Not at hb
  exact (C88_clean h.careful Γ h.vars p h.proper f s s' _ h.start h.ends hb).2.2 rfl h.quiet

/-- C84 for all programs: two programs that do the same over the integers, run on whatever machines, from the same state: if
both end without an exception and the results differ (in a variable, the output or the rest of the input), one of the runs has
carried out an operation that is not clean. -/
theorem C84_blame (A A' : Arch) {N N' : Names} {n : Nat} (Γ : Fin n → PTy N) (Γ' : Fin n → PTy N') (p : LStmt N n) (p' : LStmt N' n)
    (ht : IntEq (textS p) (textS p')) (s s' r r' : LState n) (f f' : Nat) (hss : abst s = abst s') (h : Run A Γ p s r f)
    (h' : Run A' Γ' p' s' r' f') (hd : abst r ≠ abst r') : Run.Blamed A Γ p s f ∨ Run.Blamed A' Γ' p' s' f' := by
  by_contra hb
  push Not at hb
  have e := run_int h hb.1
  have e' := run_int h' hb.2
  rw [hss] at e
  obtain ⟨g, hg⟩ := (ht _ _).1 ⟨f, uexec_text f p _ _ e⟩
  have a := uexec_mono g _ _ _ hg (max g f') (le_max_left _ _)
  have b := uexec_mono f' _ _ _ (uexec_text f' p' _ _ e') (max g f') (le_max_right _ _)
  rw [a] at b
  exact hd (Option.some.inj (Option.some.inj b))

/-- C83 for all programs: the same for two versions of one text. -/
theorem C83_blame (A A' : Arch) {N N' : Names} {n : Nat} (Γ : Fin n → PTy N) (Γ' : Fin n → PTy N') (p : LStmt N n) (p' : LStmt N' n)
    (ht : textS p = textS p') (s s' r r' : LState n) (f f' : Nat) (hss : abst s = abst s') (h : Run A Γ p s r f)
    (h' : Run A' Γ' p' s' r' f') (hd : abst r ≠ abst r') : Run.Blamed A Γ p s f ∨ Run.Blamed A' Γ' p' s' f' :=
  C84_blame A A' Γ Γ' p p' (ht ▸ fun _ _ => Iff.rfl) s s' r r' f f' hss h h' hd

/-- C83 for all programs: a version that does not end well where another one did. If one version ends without an exception in a clean
run, and the other, without handlers, is given at least as many nested steps as the text needs, then it ends well with the same result, ends
with an exception, does not compile, or has carried out an operation that is not clean. -/
theorem C83_other (A A' : Arch) {N N' : Names} {n : Nat} (Γ : Fin n → PTy N) (Γ' : Fin n → PTy N') (p : LStmt N n) (p' : LStmt N' n)
    (ht : textS p = textS p') (s s' r : LState n) (f : Nat) (hss : abst s = abst s') (h : Run A Γ p s r f)
    (hb : ¬ Run.Blamed A Γ p s f) (hN' : @Careful A' N') (hΓ' : @GoodVars A' n N' Γ') (hp' : @SProper A' n N' p') (hn : NoTry p')
    (hs' : Ranged Γ' s'.st) :
    ∃ g, ∀ g', g ≤ g' → (∃ r', Run A' Γ' p' s' r' g' ∧ abst r = abst r') ∨
      (∃ e r', @LStmt.exec A' n N' Γ' g' p' s' = some (.thrown e, r')) ∨ (∃ r', @LStmt.exec A' n N' Γ' g' p' s' = some (.fault .illFormed, r')) ∨
      Run.Blamed A' Γ' p' s' g' := by
  have e := run_int h hb
  rw [hss] at e
  let _ := A'
  obtain ⟨g, hg⟩ : ∃ g, iexec g p' (abst s') = some (some (abst r)) := by
    obtain ⟨g, hg⟩ := exec_of_text f p' (abst s') _ (ht ▸ uexec_text f p _ _ e)
    exact ⟨g, hg⟩
  refine ⟨g, fun g' hg' => ?_⟩
  by_cases hb' : Run.Blamed A' Γ' p' s' g'
  · exact Or.inr (Or.inr (Or.inr hb'))
  have hb2 := hb'
  unfold Run.Blamed at hb2
  push Not at hb2
  have hi : iexec g' p' (abst s') = some (some (abst r)) := iexec_mono g p' (abst s') _ hg g' hg'
  rcases hx : p'.exec Γ' g' s' with _ | ⟨o, r'⟩
  · exact absurd (C88_endless hN' Γ' hΓ' p' hp' hn g' s' hs' hx (by rw [hi]; simp)) hb'
  · obtain ⟨h1, _, h4⟩ := C88_clean hN' Γ' hΓ' p' hp' g' s' r' o hs' hx hb2
    cases o with
    | ret _ =>
      have hc := caught_same Γ' g' p' s' _ r' hn hx
      have k := h4 rfl hc
      rw [hi] at k
      exact Or.inl ⟨r', ⟨hN', hΓ', hp', hs', hx, hc⟩, Option.some.inj (Option.some.inj k)⟩
    | thrown x => exact Or.inr (Or.inl ⟨x, r', rfl⟩)
    | fault k =>
      cases k with
      | illFormed => exact Or.inr (Or.inr (Or.inl ⟨r', rfl⟩))
      | ub => exact absurd rfl h1.1
      | assertFail => exact absurd rfl h1.2

/-! ### Euclid's algorithm with `safe<int>` and with wider and narrower types -/

namespace EuclidInt
attribute [local instance] lp64
open Euclid (names careful step gcd start)

/-- the same variables, `safe<long>` -/
def Γ64 : Fin 3 → PTy names := fun _ => ⟨Opd.ofSafe i64, some (), some ()⟩

theorem good64 : GoodVars Γ64 := fun _ =>
  ⟨⟨show (Opd.ofSafe i64).Wf by decide +kernel, nofun, fun _ => ⟨nofun, nofun⟩, nofun⟩, Or.inr rfl⟩

private theorem run_of (A : Arch) {N : Names} (hN : @Careful A N) (Γ : Fin 3 → PTy N) (hΓ : @GoodVars A 3 N Γ) (p : LStmt N 3)
    (hp : @SProper A 3 N p) (s : LState 3) (hs : Ranged Γ s.st) (f : Nat) (x y : Int)
    (h : (@LStmt.exec A 3 N Γ f p s).map (fun r => (r.1, r.2.st 0, r.2.st 1, decide (r.2.caught = s.caught))) = some (.ret (), x, y, true)) :
    ∃ r, Run A Γ p s r f ∧ r.st 0 = x ∧ r.st 1 = y := by
  rcases hx : @LStmt.exec A 3 N Γ f p s with _ | ⟨o, r⟩
  · rw [hx] at h; cases h
  · rw [hx] at h
    have h := Option.some.inj h
    have h1 : o = .ret () := congrArg (·.1) h
    have h2 : r.st 0 = x := congrArg (·.2.1) h
    have h3 : r.st 1 = y := congrArg (·.2.2.1) h
    have h4 : decide (r.caught = s.caught) = true := congrArg (·.2.2.2) h
    subst h1
    exact ⟨r, ⟨hN, hΓ, hp, hs, hx, of_decide_eq_true h4⟩, h2, h3⟩

/-- one round from `INT_MIN`, `INT_MIN` has different results with `safe<int>` and with `safe<long>`: one of the two is to blame -/
example : Run.Blamed lp64 Γ step bad 3 ∨ Run.Blamed lp64 Γ64 step bad 3 := by
  obtain ⟨r, h, _, h1⟩ := run_of lp64 careful Γ good step proper.2 bad (fun _ => show (Opd.ofSafe i32).Has (-2147483648) by decide +kernel)
    3 (-2147483648) (-2147483648) (by decide +kernel)
  obtain ⟨r', h', _, h1'⟩ := run_of lp64 careful Γ64 good64 step proper.2 bad
    (fun _ => show (Opd.ofSafe i64).Has (-2147483648) by decide +kernel) 3 (-2147483648) 0 (by decide +kernel)
  refine C83_blame lp64 lp64 Γ Γ64 step step rfl bad bad r r' 3 3 rfl h h' fun e => ?_
  have : r.st 1 = r'.st 1 := congrArg (fun z => IState.st z 1) e
  rw [h1, h1'] at this
  cases this

/-- the computation with `safe<int>` from 48, 36 is clean -/
example : ∃ r, Run lp64 Γ gcd (start 48 36) r 20 ∧ r.st 0 = 12 ∧ ¬ Run.Blamed lp64 Γ gcd (start 48 36) 20 := by
  have hs : Ranged Γ (start 48 36).st := fun i => by
    show (Opd.ofSafe i32).Has _
    rw [has_iff]; revert i; decide +kernel
  obtain ⟨r, h, h0, _⟩ := run_of lp64 careful Γ good gcd proper (start 48 36) hs 20 12 0 (by decide +kernel)
  refine ⟨r, h, h0, ?_⟩
  rintro ⟨ev, h1, h2⟩
  exact h2 (gcd_clean 20 _ hs (by decide +kernel) ev h1)

/-- with `safe<long>` instead: the same result, an exception, or an operation to blame -/
example (r : LState 3) (h : Run lp64 Γ gcd (start 48 36) r 20) (hb : ¬ Run.Blamed lp64 Γ gcd (start 48 36) 20) :=
  C83_other lp64 lp64 Γ Γ64 gcd gcd rfl (start 48 36) (start 48 36) r 20 rfl h hb careful good64 proper ⟨trivial, trivial, trivial⟩
    (fun i => by
      have h64 : ∀ x, (Opd.ofSafe i64).Has x ↔ -9223372036854775808 ≤ x ∧ x ≤ 9223372036854775807 := fun x => Iff.rfl
      show (Opd.ofSafe i64).Has _
      rw [h64]; revert i; decide +kernel)

end EuclidInt

end Verif.Props
