import Verif.CountSpec
import Verif.Props.OrderEnds
import Verif.Props.BlameRun
import Mathlib.Data.Fintype.Basic
import Mathlib.Data.Finset.Lattice.Fold

/-!
Property C99: loops that count with a safe variable end.
-/

namespace Verif.Props
open Lang Spec
section
variable [Arch]

omit [Arch] in
private theorem storing_st {n : Nat} {s s' : LState n} {i j : Fin n} {x : Out Int} {o : Out Unit} (h : storing s i x = (o, s'))
    (hij : i ≠ j) : s'.st j = s.st j := by
  cases x <;> simp only [storing, Prod.mk.injEq] at h <;> obtain ⟨_, rfl⟩ := h
  · simp [LState.write, Ne.symm hij]
  · rfl
  · rfl

/-- how many steps are left in this direction -/
private def left (T : Opd) : Dir → Int → Nat
  | .up, x => (T.hi - x).toNat
  | .down, x => (x - T.lo).toNat

omit [Arch] in
private theorem left_step {T : Opd} {d : Dir} {x y k : Int} (hx : T.Has x) (hy : T.Has y) (h : y = x + k) (hk : d.Step k) :
    left T d y < left T d x := by
  have := hx.1; have := hx.2; have := hy.1; have := hy.2
  cases d <;> simp only [left, Dir.Step] at * <;> omega

/-- a covered program, or an execution of clean operations -/
private def Sound {N : Names} {n : Nat} (Γ : Fin n → PTy N) (f : Nat) (p : LStmt N n) (s : LState n) : Prop :=
  SCovered Γ p ∨ (SProper p ∧ ∀ ev ∈ sEvents Γ f p s, ev.Clean)

private theorem sound_fine {N : Names} (hN : Careful N) {n : Nat} {Γ : Fin n → PTy N} (hΓ : GoodVars Γ) {f : Nat} {p : LStmt N n}
    {s s' : LState n} {o : Out Unit} (hp : Sound Γ f p s) (hs : Ranged Γ s.st) (h : p.exec Γ f s = some (o, s')) :
    Fine Γ (iexec f p (abst s)) s o s' := by
  rcases hp with hp | ⟨hp, hl⟩
  · exact exec_fine hN hΓ f p s o s' hp hs h
  · exact exec_clean hN hΓ f p s o s' hp hs hl h

private theorem sound_ranged {N : Names} (hN : Careful N) {n : Nat} {Γ : Fin n → PTy N} (hΓ : GoodVars Γ) {f : Nat} {p : LStmt N n}
    {s s' : LState n} {o : Out Unit} (hp : Sound Γ f p s) (hs : Ranged Γ s.st) (h : p.exec Γ f s = some (o, s')) : Ranged Γ s'.st :=
  (sound_fine hN hΓ hp hs h).2.1

section
variable {N : Names} {n : Nat} {Γ : Fin n → PTy N} {f : Nat} {a b : LStmt N n} {c : LCond N n} {s : LState n}

private theorem sound_seq (h : Sound Γ (f + 1) (.seq a b) s) :
    Sound Γ f a s ∧ ∀ u s1, a.exec Γ f s = some (.ret u, s1) → Sound Γ f b s1 := by
  rcases h with h | ⟨h, hl⟩
  · exact ⟨Or.inl h.1, fun _ _ _ => Or.inl h.2⟩
  · exact ⟨Or.inr ⟨h.1, clean_left hl⟩, fun u s1 e => Or.inr ⟨h.2, by have hl := clean_right hl; rw [e] at hl; exact hl⟩⟩

private theorem sound_ite (h : Sound Γ (f + 1) (.ite c a b) s) :
    (c.eval Γ s.st = .ret true → Sound Γ f a s) ∧ (c.eval Γ s.st = .ret false → Sound Γ f b s) := by
  rcases h with h | ⟨h, hl⟩
  · exact ⟨fun _ => Or.inl h.2.1, fun _ => Or.inl h.2.2⟩
  · refine ⟨fun e => Or.inr ⟨h.2.1, ?_⟩, fun e => Or.inr ⟨h.2.2, ?_⟩⟩
    · have hl := clean_after e (clean_right hl)
      exact hl
    · have hl := clean_after e (clean_right hl)
      exact hl

private theorem sound_while (h : Sound Γ (f + 1) (.while c a) s) (e : c.eval Γ s.st = .ret true) :
    Sound Γ f a s ∧ ∀ u s1, a.exec Γ f s = some (.ret u, s1) → Sound Γ f (.while c a) s1 := by
  rcases h with h | ⟨h, hl⟩
  · exact ⟨Or.inl h.2, fun _ _ _ => Or.inl h⟩
  · have hl := clean_after e (clean_right hl)
    rw [if_pos rfl] at hl
    exact ⟨Or.inr ⟨h.2, clean_left hl⟩, fun u s1 e => Or.inr ⟨h, by have hl := clean_right hl; rw [e] at hl; exact hl⟩⟩

private theorem sound_try (h : Sound Γ (f + 1) (.tryCatch a b) s) :
    Sound Γ f a s ∧ ∀ x s1, a.exec Γ f s = some (.thrown x, s1) → Sound Γ f b { s1 with caught := s1.caught + 1 } := by
  rcases h with h | ⟨h, hl⟩
  · exact ⟨Or.inl h.1, fun _ _ _ => Or.inl h.2⟩
  · exact ⟨Or.inr ⟨h.1, clean_left hl⟩, fun u s1 e => Or.inr ⟨h.2, by have hl := clean_right hl; rw [e] at hl; exact hl⟩⟩

end

/-- one step -/
private theorem step_left {N : Names} (hN : Careful N) {n : Nat} {Γ : Fin n → PTy N} (hΓ : GoodVars Γ) {d : Dir} {i : Fin n}
    {k : Int} (hk : d.Step k) {f : Nat} {p : LStmt N n} {s s' : LState n} {o : Out Unit} (hp : Sound Γ (f + 1) p s) (hs : Ranged Γ s.st)
    {x : Out Int} (he : p.exec Γ (f + 1) s = some (storing s i x))
    (hi : iexec (f + 1) p (abst s) = some (some ((abst s).write i (s.st i + k)))) (h : p.exec Γ (f + 1) s = some (o, s')) :
    left (Γ i).opd d (s'.st i) ≤ left (Γ i).opd d (s.st i) ∧ (o = .ret () → left (Γ i).opd d (s'.st i) < left (Γ i).opd d (s.st i)) := by
  obtain ⟨_, h2, _, h4⟩ := sound_fine hN hΓ hp hs h
  rw [he] at h
  cases x with
  | ret v =>
    cases h
    have h4 := h4 rfl rfl
    rw [hi] at h4
    have e : (s.write i v).st i = s.st i + k := by
      have := congrArg (fun t => t.st i) (Option.some.inj (Option.some.inj h4))
      simpa [abst, IState.write] using this.symm
    have := left_step (hs i) (h2 i) e hk
    exact ⟨Nat.le_of_lt this, fun _ => this⟩
  | thrown e => cases h; exact ⟨Nat.le_refl _, nofun⟩
  | fault e => cases h; exact ⟨Nat.le_refl _, nofun⟩

/-- a steady statement never moves its variable back, whether it ends normally or by an exception -/
private theorem steady_left {N : Names} (hN : Careful N) {n : Nat} {Γ : Fin n → PTy N} (hΓ : GoodVars Γ) {d : Dir} {i : Fin n} :
    ∀ (f : Nat) (p : LStmt N n) (s : LState n), Sound Γ f p s → Steady d i p → ∀ (s' : LState n) (o : Out Unit), Ranged Γ s.st →
      p.exec Γ f s = some (o, s') → left (Γ i).opd d (s'.st i) ≤ left (Γ i).opd d (s.st i)
  | 0, p, s, _, _, s', o, _, h => by cases p <;> cases h
  | f + 1, p, s, hp, hu, s', o, hs, h => by
    have other : ∀ {j : Fin n} {x : Out Int}, j ≠ i → some (storing s j x) = some (o, s') →
        left (Γ i).opd d (s'.st i) ≤ left (Γ i).opd d (s.st i) := by
      intro j x hj h; rw [storing_st (Option.some.inj h) hj]
    cases p with
    | skip => cases h; exact Nat.le_refl _
    | assign j e => exact other hu h
    | opAssign q j e =>
      by_cases hj : j = i
      · subst hj
        unfold Steady at hu
        split at hu
        any_goals cases ‹_ = _›
        · exact (step_left hN hΓ (hu rfl) hp hs rfl rfl h).1
        · exact (step_left hN hΓ (hu rfl) hp hs rfl rfl h).1
        · exact absurd rfl hu
      · exact other hj h
    | inc j =>
      by_cases hj : j = i
      · subst hj
        exact (step_left hN hΓ (hu rfl) hp hs rfl rfl h).1
      · exact other hj h
    | dec j =>
      by_cases hj : j = i
      · subst hj
        exact (step_left hN hΓ (hu rfl) hp hs rfl rfl h).1
      · exact other hj h
    | input j =>
      have hu : j ≠ i := hu
      cases h; simp [LState.write, Ne.symm hu]
    | output e =>
      simp only [LStmt.exec] at h
      split at h <;> cases h <;> exact Nat.le_refl _
    | seq a b =>
      simp only [LStmt.exec] at h
      rcases ha : a.exec Γ f s with _ | ⟨o1, s1⟩
      · rw [ha] at h; cases h
      · rw [ha] at h
        have g := steady_left hN hΓ f a s (sound_seq hp).1 hu.1 s1 o1 hs ha
        have hs1 := sound_ranged hN hΓ (sound_seq hp).1 hs ha
        cases o1 with
        | ret u => exact (steady_left hN hΓ f b s1 ((sound_seq hp).2 _ _ ha) hu.2 s' o hs1 h).trans g
        | thrown x => cases h; exact g
        | fault k => cases h; exact g
    | ite c a b =>
      simp only [LStmt.exec] at h
      split at h
      · exact steady_left hN hΓ f a s ((sound_ite hp).1 ‹_›) hu.1 s' o hs h
      · exact steady_left hN hΓ f b s ((sound_ite hp).2 ‹_›) hu.2 s' o hs h
      · cases h; exact Nat.le_refl _
      · cases h; exact Nat.le_refl _
    | «while» c a =>
      simp only [LStmt.exec] at h
      split at h
      · have hw := sound_while hp ‹_›
        rcases ha : a.exec Γ f s with _ | ⟨o1, s1⟩
        · rw [ha] at h; cases h
        · rw [ha] at h
          have g := steady_left hN hΓ f a s hw.1 hu s1 o1 hs ha
          have hs1 := sound_ranged hN hΓ hw.1 hs ha
          cases o1 with
          | ret u => exact (steady_left hN hΓ f (.while c a) s1 (hw.2 _ _ ha) hu s' o hs1 h).trans g
          | thrown x => cases h; exact g
          | fault k => cases h; exact g
      · cases h; exact Nat.le_refl _
      · cases h; exact Nat.le_refl _
      · cases h; exact Nat.le_refl _
    | tryCatch a b =>
      simp only [LStmt.exec] at h
      rcases ha : a.exec Γ f s with _ | ⟨o1, s1⟩
      · rw [ha] at h; cases h
      · rw [ha] at h
        have g := steady_left hN hΓ f a s (sound_try hp).1 hu.1 s1 o1 hs ha
        have hs1 := sound_ranged hN hΓ (sound_try hp).1 hs ha
        cases o1 with
        | ret u => cases h; exact g
        | thrown x => exact (steady_left hN hΓ f b _ ((sound_try hp).2 _ _ ha) hu.2 s' o hs1 h).trans g
        | fault k => cases h; exact g

/-- a statement that counts leaves fewer steps when it ends normally -/
private theorem counts_left {N : Names} (hN : Careful N) {n : Nat} {Γ : Fin n → PTy N} (hΓ : GoodVars Γ) {d : Dir} {i : Fin n} :
    ∀ (f : Nat) (p : LStmt N n) (s : LState n), Sound Γ f p s → Counts d i p → ∀ (s' : LState n), Ranged Γ s.st →
      p.exec Γ f s = some (.ret (), s') → left (Γ i).opd d (s'.st i) < left (Γ i).opd d (s.st i)
  | 0, p, s, _, _, s', _, h => by cases p <;> cases h
  | f + 1, p, s, hp, hu, s', hs, h => by
    cases p with
    | skip => exact hu.elim
    | assign j e => exact hu.elim
    | opAssign q j e =>
      unfold Counts at hu
      split at hu
      any_goals cases ‹_ = _›
      · obtain ⟨rfl, hu⟩ := hu
        exact (step_left hN hΓ hu hp hs rfl rfl h).2 rfl
      · obtain ⟨rfl, hu⟩ := hu
        exact (step_left hN hΓ hu hp hs rfl rfl h).2 rfl
      · exact hu.elim
    | inc j =>
      obtain ⟨rfl, hu⟩ := hu
      exact (step_left hN hΓ hu hp hs rfl rfl h).2 rfl
    | dec j =>
      obtain ⟨rfl, hu⟩ := hu
      exact (step_left hN hΓ hu hp hs rfl rfl h).2 rfl
    | input j => exact hu.elim
    | output e => exact hu.elim
    | seq a b =>
      simp only [LStmt.exec] at h
      rcases ha : a.exec Γ f s with _ | ⟨o1, s1⟩
      · rw [ha] at h; cases h
      · rw [ha] at h
        have hs1 := sound_ranged hN hΓ (sound_seq hp).1 hs ha
        cases o1 with
        | ret u =>
          have h : b.exec Γ f s1 = some (.ret (), s') := h
          have hb := (sound_seq hp).2 _ _ ha
          rcases hu with ⟨h1, h2⟩ | ⟨h1, h2⟩
          · exact Nat.lt_of_le_of_lt (steady_left hN hΓ f b s1 hb h2 s' _ hs1 h) (counts_left hN hΓ f a s (sound_seq hp).1 h1 s1 hs ha)
          · exact Nat.lt_of_lt_of_le (counts_left hN hΓ f b s1 hb h2 s' hs1 h) (steady_left hN hΓ f a s (sound_seq hp).1 h1 s1 _ hs ha)
        | thrown x => cases h
        | fault k => cases h
    | ite c a b =>
      simp only [LStmt.exec] at h
      split at h
      · exact counts_left hN hΓ f a s ((sound_ite hp).1 ‹_›) hu.1 s' hs h
      · exact counts_left hN hΓ f b s ((sound_ite hp).2 ‹_›) hu.2 s' hs h
      · cases h
      · cases h
    | «while» c a => exact hu.elim
    | tryCatch a b =>
      simp only [LStmt.exec] at h
      rcases ha : a.exec Γ f s with _ | ⟨o1, s1⟩
      · rw [ha] at h; cases h
      · rw [ha] at h
        have hs1 := sound_ranged hN hΓ (sound_try hp).1 hs ha
        cases o1 with
        | ret u => cases h; exact counts_left hN hΓ f a s (sound_try hp).1 hu.2.1 _ hs ha
        | thrown x =>
          exact Nat.lt_of_lt_of_le (counts_left hN hΓ f b _ ((sound_try hp).2 _ _ ha) hu.2.2 s' hs1 h)
            (steady_left hN hΓ f a s (sound_try hp).1 hu.1 s1 _ hs ha)
        | fault k => cases h

private theorem sound_ends {N : Names} (hN : Careful N) {n : Nat} (Γ : Fin n → PTy N) (hΓ : GoodVars Γ) (W : Nat)
    (hW : ∀ i, (Γ i).opd.hi - (Γ i).opd.lo ≤ W) (p : LStmt N n) (hc : Counted p) :
    ∀ (f : Nat) (s : LState n), depth W p ≤ f → Sound Γ f p s → Ranged Γ s.st → p.exec Γ f s ≠ none := by
  induction p with
  | seq a b iha ihb =>
    intro f s hf hp hs h
    simp only [depth] at hf
    obtain ⟨f, rfl⟩ : ∃ g, f = g + 1 := ⟨f - 1, by omega⟩
    simp only [LStmt.exec] at h
    rcases ha : a.exec Γ f s with _ | ⟨o, s1⟩
    · exact iha hc.1 f s (by omega) (sound_seq hp).1 hs ha
    · rw [ha] at h
      cases o with
      | ret u => exact ihb hc.2 f s1 (by omega) ((sound_seq hp).2 _ _ ha) (sound_ranged hN hΓ (sound_seq hp).1 hs ha) h
      | thrown x => cases h
      | fault k => cases h
  | ite c a b iha ihb =>
    intro f s hf hp hs h
    simp only [depth] at hf
    obtain ⟨f, rfl⟩ : ∃ g, f = g + 1 := ⟨f - 1, by omega⟩
    simp only [LStmt.exec] at h
    split at h
    · exact iha hc.1 f s (by omega) ((sound_ite hp).1 ‹_›) hs h
    · exact ihb hc.2 f s (by omega) ((sound_ite hp).2 ‹_›) hs h
    · cases h
    · cases h
  | tryCatch a b iha ihb =>
    intro f s hf hp hs h
    simp only [depth] at hf
    obtain ⟨f, rfl⟩ : ∃ g, f = g + 1 := ⟨f - 1, by omega⟩
    simp only [LStmt.exec] at h
    rcases ha : a.exec Γ f s with _ | ⟨o, s1⟩
    · exact iha hc.1 f s (by omega) (sound_try hp).1 hs ha
    · rw [ha] at h
      cases o with
      | ret u => cases h
      | thrown x =>
        have hs1 : Ranged Γ s1.st := sound_ranged hN hΓ (sound_try hp).1 hs ha
        exact ihb hc.2 f { s1 with caught := s1.caught + 1 } (by omega) ((sound_try hp).2 _ _ ha) hs1 h
      | fault k => cases h
  | «while» c a ih =>
    obtain ⟨hca, d, i, hi⟩ := hc
    have key : ∀ (m f : Nat) (s : LState n), depth W a + m ≤ f → Sound Γ f (.while c a) s → Ranged Γ s.st →
        left (Γ i).opd d (s.st i) < m → (LStmt.while c a).exec Γ f s ≠ none := by
      intro m
      induction m with
      | zero => intro f s _ _ _ h; omega
      | succ m ihm =>
        intro f s hf hp hs hm h
        obtain ⟨f, rfl⟩ : ∃ g, f = g + 1 := ⟨f - 1, by omega⟩
        simp only [LStmt.exec] at h
        split at h
        · have hw := sound_while hp ‹_›
          rcases ha : a.exec Γ f s with _ | ⟨o, s'⟩
          · exact ih hca f s (by omega) hw.1 hs ha
          · rw [ha] at h
            cases o with
            | ret u =>
              have := counts_left hN hΓ f a s hw.1 hi s' hs ha
              exact ihm f s' (by omega) (hw.2 _ _ ha) (sound_ranged hN hΓ hw.1 hs ha) (by omega) h
            | thrown x => cases h
            | fault k => cases h
        · cases h
        · cases h
        · cases h
    intro f s hf hp hs
    refine key (W + 1) f s hf hp hs ?_
    have := (hs i).1; have := (hs i).2; have := hW i
    cases d <;> simp only [left] <;> omega
  | output e =>
    intro f s hf _ _ h
    obtain ⟨f, rfl⟩ : ∃ g, f = g + 1 := ⟨f - 1, by simp only [depth] at hf; omega⟩
    simp only [LStmt.exec] at h
    split at h <;> cases h
  | _ =>
    intro f s hf _ _ h
    obtain ⟨f, rfl⟩ : ∃ g, f = g + 1 := ⟨f - 1, by simp only [depth] at hf; omega⟩
    cases h

/-- A program whose loops count with safe variables, with policies that throw or trap, ends from every state within the ranges, with
any input, whatever the conditions of its loops are: no loop goes round more often than a variable has values. -/
theorem C99_bound {N : Names} (hN : Careful N) {n : Nat} (Γ : Fin n → PTy N) (hΓ : GoodVars Γ) (W : Nat)
    (hW : ∀ i, (Γ i).opd.hi - (Γ i).opd.lo ≤ W) (p : LStmt N n) (hp : SCovered Γ p) (hc : Counted p) (s : LState n)
    (hs : Ranged Γ s.st) : p.exec Γ (depth W p) s ≠ none :=
  sound_ends hN Γ hΓ W hW p hc _ s (Nat.le_refl _) (Or.inl hp) hs

/-- Every other program whose loops count, with variables of safe or built-in types and any operators: if it does not end within the
bound, then among the operations it has carried out there is one that is not clean (C88). -/
theorem C99_blame {N : Names} (hN : Careful N) {n : Nat} (Γ : Fin n → PTy N) (hΓ : GoodVars Γ) (W : Nat)
    (hW : ∀ i, (Γ i).opd.hi - (Γ i).opd.lo ≤ W) (p : LStmt N n) (hp : SProper p) (hc : Counted p) (s : LState n)
    (hs : Ranged Γ s.st) (f : Nat) (hf : depth W p ≤ f) (h : p.exec Γ f s = none) : ∃ ev ∈ sEvents Γ f p s, ¬ ev.Clean := by
  by_contra hn
  push Not at hn
  exact sound_ends hN Γ hΓ W hW p hc f s hf (Or.inr ⟨hp, hn⟩) hs h

/-- Such a program always ends: in the order of evaluation of the model, and if it is accepted by the compiler in every order. -/
theorem C99_ends {N : Names} (hN : Careful N) {n : Nat} (Γ : Fin n → PTy N) (hΓ : GoodVars Γ) (p : LStmt N n) (hp : SCovered Γ p)
    (hc : Counted p) (s : LState n) (hs : Ranged Γ s.st) :
    (∃ r s', Ends Γ p s r s' ∧ r ≠ .fault .ub ∧ r ≠ .fault .assertFail) ∧ (SAccepted Γ p → AlwaysEnds Γ p s) := by
  have e : ∃ r s', Ends Γ p s r s' ∧ r ≠ .fault .ub ∧ r ≠ .fault .assertFail := by
    let g : Fin n → Nat := fun i => ((Γ i).opd.hi - (Γ i).opd.lo).toNat
    have hW : ∀ i, (Γ i).opd.hi - (Γ i).opd.lo ≤ (Finset.univ.sup g : Nat) := by
      intro i
      have : g i ≤ Finset.univ.sup g := Finset.le_sup (f := g) (Finset.mem_univ i)
      have : g i = ((Γ i).opd.hi - (Γ i).opd.lo).toNat := rfl
      omega
    rcases h : p.exec Γ (depth (Finset.univ.sup g) p) s with _ | ⟨r, s'⟩
    · exact absurd h (C99_bound hN Γ hΓ _ hW p hp hc s hs)
    · exact ⟨r, s', ⟨_, fun f hf => C59_bound Γ _ p s _ h f hf⟩, (C59_safe_partial hN Γ hΓ p hp _ s s' r hs h).1⟩
  refine ⟨e, fun ha => ?_⟩
  obtain ⟨r, s', h, _⟩ := e
  exact (C92_ends_covered hN Γ hΓ p hp ha s hs).2 ⟨r, s', h⟩

end

namespace Handler
attribute [local instance] lp64
open Euclid (names careful)

/-- `while(i <= i) { try { x = x * x; } catch(...) { x = 0; } ++i; }` -/
def forever : LStmt names 3 := .while (.cmp .le (.var 1) (.var 1)) (.seq square (.inc 1))

theorem forever_covered : SCovered Γ forever := by
  refine ⟨⟨trivial, trivial, fun T U h _ => ?_⟩, square_covered, rfl⟩
  cases h; exact Or.inl (Or.inl rfl)

theorem square_steady (d : Dir) : Steady d 1 square := ⟨(by decide : (0 : Fin 3) ≠ 1), (by decide : (0 : Fin 3) ≠ 1)⟩

-- the loop of C98 and the loop without an end condition both end, from every state
example (s : LState 3) (hs : Ranged Γ s.st) : AlwaysEnds Γ loop s :=
  (C99_ends careful Γ good loop loop_covered ⟨⟨trivial, trivial, trivial⟩, .up, 1, Or.inl ⟨⟨rfl, Int.one_pos⟩, square_steady _⟩⟩ s hs).2
    loop_accepted
example (s : LState 3) (hs : Ranged Γ s.st) : ∃ r s', Ends Γ forever s r s' ∧ r ≠ .fault .ub ∧ r ≠ .fault .assertFail :=
  (C99_ends careful Γ good forever forever_covered
    ⟨⟨⟨trivial, trivial⟩, trivial⟩, .up, 1, Or.inr ⟨square_steady _, rfl, Int.one_pos⟩⟩ s hs).1
example : (forever.exec Γ 9 ⟨fun _ => 2147483646, ⟨[], false, false⟩, [], 0⟩).map (fun r => (r.1, r.2.st 0, r.2.st 1, r.2.caught)) =
    some (.thrown .positive_overflow_error, 0, 2147483647, 1) := by decide +kernel

end Handler

namespace Count
attribute [local instance] lp64

/-- `strict_exception_policy` -/
@[reducible] def strict : Names := ⟨Unit, Unit, inferInstance, inferInstance, fun _ => .native, fun _ => strictException⟩
/-- an exception policy that ignores all errors -/
@[reducible] def ignoring : Names :=
  ⟨Unit, Unit, inferInstance, inferInstance, fun _ => .native, fun _ => ⟨.ignore, .ignore, .ignore, .ignore⟩⟩

/-- `while(x <= x) { ++x; }` -/
def spin (N : Names) : LStmt N 1 := .while (.cmp .le (.var 0) (.var 0)) (.inc 0)
/-- `while(x <= x) { x += 2147483648u; }` -/
def leap (N : Names) : LStmt N 1 := .while (.cmp .le (.var 0) (.var 0)) (.opAssign (.ar .add) 0 (.const u32 2147483648))
/-- `while(x <= x) { ++x; --x; }` -/
def sway (N : Names) : LStmt N 1 := .while (.cmp .le (.var 0) (.var 0)) (.seq (.inc 0) (.dec 0))

theorem counted_spin (N : Names) : Counted (spin N) := ⟨trivial, .up, 0, rfl, Int.one_pos⟩

theorem strict_careful : Careful strict := ⟨fun _ => Or.inl rfl, fun _ => trivial⟩

/-- `unsigned char x` -/
def Γb : Fin 1 → PTy strict := fun _ => PTy.builtin u8
/-- `safe<unsigned, native, ignoring> x` -/
def Γi : Fin 1 → PTy ignoring := fun _ => ⟨Opd.ofSafe u32, some (), some ()⟩
/-- `safe<unsigned char, native, strict_exception_policy> x` -/
def Γs : Fin 1 → PTy strict := fun _ => ⟨Opd.ofSafe u8, some (), some ()⟩

/-- a loop whose condition is true, and whose body takes some state of a set to another, in the set, does not end -/
theorem spins {N : Names} {Γ : Fin 1 → PTy N} {c : LCond N 1} {a : LStmt N 1} (P : Int → Prop)
    (hc : ∀ x, P x → c.eval Γ (fun _ => x) = .ret true)
    (ha : ∀ f x inp out k r, P x → a.exec Γ f ⟨fun _ => x, inp, out, k⟩ = some r → ∃ y, P y ∧ r = (.ret (), ⟨fun _ => y, inp, out, k⟩)) :
    ∀ f x inp out k, P x → (LStmt.while c a).exec Γ f ⟨fun _ => x, inp, out, k⟩ = none
  | 0, _, _, _, _, _ => rfl
  | f + 1, x, inp, out, k, h => by
    simp only [LStmt.exec, hc x h]
    rcases e : a.exec Γ f ⟨fun _ => x, inp, out, k⟩ with _ | r
    · rfl
    · obtain ⟨y, hy, rfl⟩ := ha f x inp out k r h e
      exact spins P hc ha f y inp out k hy

theorem store (inp : IStream) (out : List Char) (k : Nat) (x y : Int) :
    storing ⟨fun _ : Fin 1 => x, inp, out, k⟩ 0 (.ret y) = (.ret (), ⟨fun _ => y, inp, out, k⟩) := by
  simp only [storing, LState.write, Prod.mk.injEq, true_and, LState.mk.injEq, and_true]
  funext j
  rw [if_pos (Subsingleton.elim _ _)]

theorem bytes {Q : Int → Prop} (h : ∀ k : Fin 256, Q (k.val : Int)) (x : Int) (hx : 0 ≤ x ∧ x < 256) : Q x := by
  have := h ⟨x.toNat, by omega⟩
  rwa [show ((⟨x.toNat, by omega⟩ : Fin 256).val : Int) = x from by simp; omega] at this

theorem good_b : GoodVars Γb :=
  fun _ => ⟨⟨show (Opd.ofBuiltin u8).Wf by decide +kernel, fun _ => ⟨rfl, rfl⟩, nofun, nofun⟩, Or.inl rfl⟩

theorem endless_b (x : Int) (hx : (Γb 0).opd.Has x) (f : Nat) (inp : IStream) (out : List Char) (k : Nat) :
    (spin strict).exec Γb f ⟨fun _ => x, inp, out, k⟩ = none := by
  refine spins (fun x => 0 ≤ x ∧ x < 256) ?_ ?_ f x inp out k ?_
  · exact bytes (by decide +kernel)
  · intro f x inp out k r hx h
    cases f with
    | zero => cases h
    | succ f =>
      have e : opAssignVal Γb (fun _ => x) (.ar .add) 0 (.const tInt 1) = .ret ((x + 1) % 256) :=
        bytes (Q := fun x => opAssignVal Γb (fun _ => x) (.ar .add) 0 (.const tInt 1) = .ret ((x + 1) % 256)) (by decide +kernel) x hx
      simp only [LStmt.exec, e, store] at h
      cases h
      exact ⟨_, by omega, rfl⟩
  · exact ⟨hx.1, Int.lt_add_one_of_le (show x ≤ 255 from hx.2)⟩

-- the wrapping increment is to blame
example (f : Nat) (hf : 257 ≤ f) (x : Int) (hx : (Γb 0).opd.Has x) (inp : IStream) (out : List Char) (k : Nat) :
    ∃ ev ∈ sEvents Γb f (spin strict) ⟨fun _ => x, inp, out, k⟩, ¬ ev.Clean :=
  C99_blame strict_careful Γb good_b 255 (fun _ => (by decide +kernel : (Opd.ofBuiltin u8).hi - (Opd.ofBuiltin u8).lo ≤ 255)) (spin strict)
    ⟨⟨trivial, trivial⟩, trivial⟩ (counted_spin _) ⟨fun _ => x, inp, out, k⟩ (fun _ => hx) f hf (endless_b x hx f inp out k)

end Count

/-- The counter has to be of a safe type: `unsigned char x; while(x <= x) { ++x; }` never ends. -/
theorem C99_safe_needed : let _ := lp64; ∃ (N : Names) (Γ : Fin 1 → PTy N) (p : LStmt N 1), Careful N ∧ GoodVars Γ ∧ Counted p ∧
    ∀ x, (Γ 0).opd.Has x → ∀ f inp out k, p.exec Γ f ⟨fun _ => x, inp, out, k⟩ = none :=
  ⟨Count.strict, Count.Γb, Count.spin _, Count.strict_careful, Count.good_b, Count.counted_spin _, Count.endless_b⟩

/-- The errors must not be ignored: with `safe<unsigned>` under a policy that ignores them, `while(x <= x) { x += 2147483648u; }` does not
end. -/
theorem C99_policy_needed : let _ := lp64; ∃ (N : Names) (Γ : Fin 1 → PTy N) (p : LStmt N 1), GoodVars Γ ∧ SCovered Γ p ∧ Counted p ∧
    ∃ x, (Γ 0).opd.Has x ∧ ∀ f inp out k, p.exec Γ f ⟨fun _ => x, inp, out, k⟩ = none := by
  let _ := lp64
  refine ⟨Count.ignoring, Count.Γi, Count.leap _,
    fun _ => ⟨⟨show (Opd.ofSafe u32).Wf by decide +kernel, nofun, fun _ => ⟨nofun, nofun⟩, nofun⟩, Or.inr rfl⟩,
    ⟨⟨trivial, trivial, fun T U h _ => by cases h; exact Or.inl (Or.inl rfl)⟩, ⟨by decide +kernel, by decide +kernel⟩,
      fun U _ => ⟨Or.inl rfl, fun _ _ _ _ => trivial⟩⟩,
    ⟨trivial, .up, 0, rfl, (by decide : (0 : Int) < 2147483648)⟩, 0, by decide +kernel,
    fun f inp out k => Count.spins (fun x => x = 0 ∨ x = 2147483648) ?_ ?_ f 0 inp out k (Or.inl rfl)⟩
  · rintro x (rfl | rfl) <;> decide +kernel
  · rintro f x inp out k r hx h
    cases f with
    | zero => cases h
    | succ f =>
      have e1 : opAssignVal Count.Γi (fun _ => 0) (.ar .add) 0 (.const u32 2147483648) = .ret 2147483648 := by decide +kernel
      have e2 : opAssignVal Count.Γi (fun _ => 2147483648) (.ar .add) 0 (.const u32 2147483648) = .ret 0 := by decide +kernel
      rcases hx with rfl | rfl
      · simp only [LStmt.exec, e1, Count.store] at h
        cases h
        exact ⟨_, Or.inr rfl, rfl⟩
      · simp only [LStmt.exec, e2, Count.store] at h
        cases h
        exact ⟨_, Or.inl rfl, rfl⟩

/-- The steps have to be in one direction: `while(x <= x) { ++x; --x; }` with `safe<unsigned char>` under the strict policy does not end. -/
theorem C99_steady_needed : let _ := lp64; ∃ (N : Names) (Γ : Fin 1 → PTy N) (p : LStmt N 1), Careful N ∧ GoodVars Γ ∧ SCovered Γ p ∧
    ∃ x, (Γ 0).opd.Has x ∧ ∀ f inp out k, p.exec Γ f ⟨fun _ => x, inp, out, k⟩ = none := by
  let _ := lp64
  refine ⟨Count.strict, Count.Γs, Count.sway _, Count.strict_careful,
    fun _ => ⟨⟨show (Opd.ofSafe u8).Wf by decide +kernel, nofun, fun _ => ⟨nofun, nofun⟩, nofun⟩, Or.inr rfl⟩,
    ⟨⟨trivial, trivial, fun T U h _ => by cases h; exact Or.inl (Or.inl rfl)⟩, rfl, rfl⟩, 7, by decide +kernel,
    fun f inp out k => Count.spins (fun x => x = 7) ?_ ?_ f 7 inp out k rfl⟩
  · rintro x rfl; decide +kernel
  · rintro f x inp out k r rfl h
    cases f with
    | zero => cases h
    | succ f =>
      cases f with
      | zero => cases h
      | succ f =>
        have e1 : opAssignVal Count.Γs (fun _ => 7) (.ar .add) 0 (.const tInt 1) = .ret 8 := by decide +kernel
        have e2 : opAssignVal Count.Γs (fun _ => 8) (.ar .sub) 0 (.const tInt 1) = .ret 7 := by decide +kernel
        simp only [LStmt.exec, e1, e2, Count.store] at h
        cases h
        exact ⟨_, rfl, rfl⟩

end Verif.Props
