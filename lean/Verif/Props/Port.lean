import Verif.PortSpec
import Verif.Props.Lang
import Verif.Props.LangTrap
import Verif.Props.Quiet

/-!
Property C83: portability. Two versions of a program, which differ in the types of variables, constants and casts, in the promotion and
exception policies, in the handlers and in the machine they run on, never end with different results without an exception.
-/

namespace Verif.Props
open Spec Lang

/-! ### the computation over the integers depends only on the text -/

theorem uval_text {N : Names} (s : Fin n → Int) : ∀ e : LExpr N n, uval s (textE e) = ival s e
  | .var _ => rfl
  | .const _ _ => rfl
  | .lit _ => rfl
  | .bin o a b => by
    show (uval s (textE a)).bind _ = (ival s a).bind _
    rw [uval_text s a, uval_text s b]
  | .neg a => by
    show (uval s (textE a)).bind _ = (ival s a).bind _
    rw [uval_text s a]
  | .pos a => uval_text s a
  | .cast _ a => uval_text s a

theorem ucond_text {N : Names} (s : Fin n → Int) : ∀ c : LCond N n, ucond s (textC c) = icond s c
  | .cmp o a b => by
    show (uval s (textE a)).bind _ = (ival s a).bind _
    rw [uval_text s a, uval_text s b]
  | .truth a => by
    show (uval s (textE a)).bind _ = (ival s a).bind _
    rw [uval_text s a]
  | .not a => by
    show (ucond s (textC a)).bind _ = (icond s a).bind _
    rw [ucond_text s a]
  | .and a b => by
    show (ucond s (textC a)).bind _ = (icond s a).bind _
    rw [ucond_text s a, ucond_text s b]
  | .or a b => by
    show (ucond s (textC a)).bind _ = (icond s a).bind _
    rw [ucond_text s a, ucond_text s b]

theorem uexec_mono : ∀ (f : Nat) (p : UStmt n) (s : IState n) (r : Option (IState n)), uexec f p s = some r →
    ∀ g, f ≤ g → uexec g p s = some r
  | 0, p, s, r, h, _, _ => by cases p <;> cases h
  | f + 1, p, s, r, h, 0, hg => by omega
  | f + 1, p, s, r, h, g + 1, hg => by
    have hg : f ≤ g := by omega
    cases p with
    | seq a b =>
      simp only [uexec] at h ⊢
      rcases ha : uexec f a s with _ | _ | s1
      · rw [ha] at h; cases h
      · rw [uexec_mono f a s _ ha g hg]; rw [ha] at h; exact h
      · rw [uexec_mono f a s _ ha g hg]; rw [ha] at h; exact uexec_mono f b s1 r h g hg
    | ite c a b =>
      simp only [uexec] at h ⊢
      rcases hc : ucond s.st c with _ | x
      · rw [hc] at h; exact h
      · rw [hc] at h
        cases x
        · exact uexec_mono f b s r h g hg
        · exact uexec_mono f a s r h g hg
    | «while» c a =>
      simp only [uexec] at h ⊢
      rcases hc : ucond s.st c with _ | x
      · rw [hc] at h; exact h
      · rw [hc] at h
        cases x
        · exact h
        · dsimp only at h ⊢
          rcases ha : uexec f a s with _ | _ | s1
          · rw [ha] at h; cases h
          · rw [uexec_mono f a s _ ha g hg]; rw [ha] at h; exact h
          · rw [uexec_mono f a s _ ha g hg]; rw [ha] at h; exact uexec_mono f (.while c a) s1 r h g hg
    | skip => exact h
    | assign => exact h
    | opAssign => exact h
    | inc => exact h
    | dec => exact h
    | input => exact h
    | output => exact h

theorem uexec_text {N : Names} : ∀ (f : Nat) (p : LStmt N n) (s : IState n) (r : Option (IState n)),
    iexec f p s = some r → uexec f (textS p) s = some r
  | 0, p, s, r, h => by cases p <;> cases h
  | f + 1, p, s, r, h => by
    cases p with
    | seq a b =>
      simp only [uexec, iexec, textS] at h ⊢
      rcases ha : iexec f a s with _ | _ | s1
      · rw [ha] at h; cases h
      · rw [uexec_text f a s _ ha]; rw [ha] at h; exact h
      · rw [uexec_text f a s _ ha]; rw [ha] at h; exact uexec_text f b s1 r h
    | ite c a b =>
      simp only [uexec, iexec, textS] at h ⊢
      rw [ucond_text]
      rcases hc : icond s.st c with _ | x
      · rw [hc] at h; exact h
      · rw [hc] at h
        cases x
        · exact uexec_text f b s r h
        · exact uexec_text f a s r h
    | «while» c a =>
      simp only [uexec, iexec, textS] at h ⊢
      rw [ucond_text]
      rcases hc : icond s.st c with _ | x
      · rw [hc] at h; exact h
      · rw [hc] at h
        cases x
        · exact h
        · dsimp only at h ⊢
          rcases ha : iexec f a s with _ | _ | s1
          · rw [ha] at h; cases h
          · rw [uexec_text f a s _ ha]; rw [ha] at h; exact h
          · rw [uexec_text f a s _ ha]; rw [ha] at h; exact uexec_text f (.while c a) s1 r h
    | tryCatch a b =>
      exact uexec_mono f (textS a) s r (uexec_text f a s r h) (f + 1) (by omega)
    | assign i e => simp only [uexec, iexec, textS] at h ⊢; rw [uval_text]; exact h
    | opAssign o i e => simp only [uexec, iexec, textS] at h ⊢; rw [uval_text]; exact h
    | output e => simp only [uexec, iexec, textS] at h ⊢; rw [uval_text]; exact h
    | skip => exact h
    | inc => exact h
    | dec => exact h
    | input => exact h

theorem exec_of_text {N : Names} : ∀ (f : Nat) (p : LStmt N n) (s : IState n) (r : Option (IState n)),
    uexec f (textS p) s = some r → ∃ g, iexec g p s = some r
  | 0, p, s, r, h => by
    exfalso
    revert h
    generalize textS p = q
    cases q <;> exact nofun
  | f + 1, .tryCatch a b, s, r, h => by
    obtain ⟨g, hg⟩ := exec_of_text (f + 1) a s r h
    exact ⟨g + 1, hg⟩
  | f + 1, .seq a b, s, r, h => by
    simp only [uexec, textS] at h
    rcases ha : uexec f (textS a) s with _ | _ | s1
    · rw [ha] at h; cases h
    · obtain ⟨g, hg⟩ := exec_of_text f a s _ ha
      rw [ha] at h
      exact ⟨g + 1, by simp only [iexec]; rw [hg]; exact h⟩
    · obtain ⟨g, hg⟩ := exec_of_text f a s _ ha
      rw [ha] at h
      obtain ⟨g', hg'⟩ := exec_of_text f b s1 r h
      refine ⟨max g g' + 1, ?_⟩
      simp only [iexec]
      rw [C60_bound g a s _ hg _ (le_max_left _ _)]
      exact C60_bound g' b s1 _ hg' _ (le_max_right _ _)
  | f + 1, .ite c a b, s, r, h => by
    simp only [uexec, textS] at h
    rw [ucond_text] at h
    rcases hc : icond s.st c with _ | x
    · rw [hc] at h; exact ⟨1, by simp only [iexec]; rw [hc]; exact h⟩
    · rw [hc] at h
      cases x
      · obtain ⟨g, hg⟩ := exec_of_text f b s r h
        exact ⟨g + 1, by simp only [iexec]; rw [hc]; exact hg⟩
      · obtain ⟨g, hg⟩ := exec_of_text f a s r h
        exact ⟨g + 1, by simp only [iexec]; rw [hc]; exact hg⟩
  | f + 1, .while c a, s, r, h => by
    simp only [uexec, textS] at h
    rw [ucond_text] at h
    rcases hc : icond s.st c with _ | x
    · rw [hc] at h; exact ⟨1, by simp only [iexec]; rw [hc]; exact h⟩
    · rw [hc] at h
      cases x
      · exact ⟨1, by simp only [iexec]; rw [hc]; exact h⟩
      · dsimp only at h
        rcases ha : uexec f (textS a) s with _ | _ | s1
        · rw [ha] at h; cases h
        · obtain ⟨g, hg⟩ := exec_of_text f a s _ ha
          rw [ha] at h
          exact ⟨g + 1, by simp only [iexec]; rw [hc]; dsimp only; rw [hg]; exact h⟩
        · obtain ⟨g, hg⟩ := exec_of_text f a s _ ha
          rw [ha] at h
          obtain ⟨g', hg'⟩ := exec_of_text f (.while c a) s1 r h
          refine ⟨max g g' + 1, ?_⟩
          simp only [iexec]
          rw [hc]
          dsimp only
          rw [C60_bound g a s _ hg _ (le_max_left _ _)]
          exact C60_bound g' (.while c a) s1 _ hg' _ (le_max_right _ _)
  | f + 1, .assign i e, s, r, h => by
    simp only [uexec, textS] at h; rw [uval_text] at h; exact ⟨1, h⟩
  | f + 1, .opAssign o i e, s, r, h => by
    simp only [uexec, textS] at h; rw [uval_text] at h; exact ⟨1, h⟩
  | f + 1, .output e, s, r, h => by
    simp only [uexec, textS] at h; rw [uval_text] at h; exact ⟨1, h⟩
  | f + 1, .skip, s, r, h => ⟨1, h⟩
  | f + 1, .inc i, s, r, h => ⟨1, h⟩
  | f + 1, .dec i, s, r, h => ⟨1, h⟩
  | f + 1, .input i, s, r, h => ⟨1, h⟩
  termination_by f p => (f, sizeOf p)

private theorem text_ends {N N' : Names} {n : Nat} {p : LStmt N n} {p' : LStmt N' n} (ht : textS p = textS p') {f : Nat} {s : IState n}
    {r : Option (IState n)} (h : iexec f p s = some r) : ∃ g, iexec g p' s ≠ none := by
  obtain ⟨g, hg⟩ := exec_of_text f p' s r (by rw [← ht]; exact uexec_text f p s r h)
  exact ⟨g, by rw [hg]; exact nofun⟩

/-- programs with the same text compute the same over the integers (lemma for C83) -/
theorem iexec_text {N N' : Names} {n : Nat} {p : LStmt N n} {p' : LStmt N' n} (ht : textS p = textS p') {f f' : Nat} {s : IState n}
    {r r' : Option (IState n)} (h : iexec f p s = some r) (h' : iexec f' p' s = some r') : r = r' := by
  have e := uexec_mono f _ s r (uexec_text f p s r h) (max f f') (le_max_left _ _)
  have e' := uexec_mono f' _ s r' (uexec_text f' p' s r' h') (max f f') (le_max_right _ _)
  rw [ht] at e
  rw [e] at e'
  cases e'
  rfl

section
variable [Arch]

/-- without handlers nothing is caught -/
theorem caught_same {N : Names} {n : Nat} (Γ : Fin n → PTy N) : ∀ (f : Nat) (p : LStmt N n) (s : LState n) (o : Out Unit)
    (s' : LState n), NoTry p → p.exec Γ f s = some (o, s') → s'.caught = s.caught
  | 0, p, s, o, s', _, h => by cases p <;> cases h
  | f + 1, p, s, o, s', hn, h => by
    have hst : ∀ (i : Fin n) (x : Out Int), storing s i x = (o, s') → s'.caught = s.caught := by
      intro i x h
      cases x <;> cases h <;> rfl
    cases p with
    | seq a b =>
      simp only [LStmt.exec] at h
      rcases ha : a.exec Γ f s with _ | ⟨o1, s1⟩
      · rw [ha] at h; cases h
      · rw [ha] at h
        have h1 := caught_same Γ f a s o1 s1 hn.1 ha
        cases o1 with
        | ret _ => rw [caught_same Γ f b s1 o s' hn.2 h, h1]
        | thrown x => cases h; exact h1
        | fault k => cases h; exact h1
    | ite c a b =>
      simp only [LStmt.exec] at h
      cases hc : c.eval Γ s.st with
      | ret x =>
        rw [hc] at h
        cases x
        · exact caught_same Γ f b s o s' hn.2 h
        · exact caught_same Γ f a s o s' hn.1 h
      | thrown x => rw [hc] at h; cases h; rfl
      | fault k => rw [hc] at h; cases h; rfl
    | «while» c a =>
      simp only [LStmt.exec] at h
      cases hc : c.eval Γ s.st with
      | ret x =>
        rw [hc] at h
        cases x
        · cases h; rfl
        · dsimp only at h
          rcases ha : a.exec Γ f s with _ | ⟨o1, s1⟩
          · rw [ha] at h; cases h
          · rw [ha] at h
            have h1 := caught_same Γ f a s o1 s1 hn ha
            cases o1 with
            | ret _ => rw [caught_same Γ f (.while c a) s1 o s' hn h, h1]
            | thrown x => cases h; exact h1
            | fault k => cases h; exact h1
      | thrown x => rw [hc] at h; cases h; rfl
      | fault k => rw [hc] at h; cases h; rfl
    | tryCatch a b => exact hn.elim
    | skip => cases h; rfl
    | assign i e => exact hst _ _ (Option.some.inj h)
    | opAssign o i e => exact hst _ _ (Option.some.inj h)
    | inc i => exact hst _ _ (Option.some.inj h)
    | dec i => exact hst _ _ (Option.some.inj h)
    | input i =>
      simp only [LStmt.exec] at h
      rcases hi : inputStep (Γ i) (s.st i) s.inp with ⟨r, v, rest⟩
      rw [hi] at h
      cases h
      rfl
    | output e =>
      simp only [LStmt.exec] at h
      split at h <;> cases h <;> rfl

private theorem cond_of {N : Names} (hN : Careful N) {n : Nat} {Γ : Fin n → PTy N} (hΓ : GoodVars Γ) {s : Fin n → Int} (hs : Ranged Γ s)
    {c : LCond N n} (hc : CCovered Γ c) {x : Bool} (h : c.eval Γ s = .ret x) : icond s c = some x := by
  rcases C58_cond_partial hN Γ hΓ s hs c hc with ⟨b, h1, h2⟩ | ⟨e, h1⟩ | h1
  · rw [h1] at h; cases h; exact h2
  · rw [h1] at h; cases h
  · rw [h1] at h; cases h

/-- as long as the execution is not finished, neither is the computation over the integers -/
theorem none_of_none {N : Names} (hN : Careful N) {n : Nat} {Γ : Fin n → PTy N} (hΓ : GoodVars Γ) :
    ∀ (f : Nat) (p : LStmt N n) (s : LState n), NoTry p → SCovered Γ p → Ranged Γ s.st → p.exec Γ f s = none →
      iexec f p (abst s) = none
  | 0, p, s, _, _, _, _ => by cases p <;> rfl
  | f + 1, p, s, hn, hp, hs, h => by
    cases p with
    | seq a b =>
      simp only [LStmt.exec] at h
      simp only [iexec]
      rcases ha : a.exec Γ f s with _ | ⟨o1, s1⟩
      · rw [none_of_none hN hΓ f a s hn.1 hp.1 hs ha]
      · rw [ha] at h
        cases o1 with
        | ret _ =>
          rw [C60_refines_partial hN Γ hΓ a hp.1 f s s1 hs ha (caught_same Γ f a s _ s1 hn.1 ha)]
          exact none_of_none hN hΓ f b s1 hn.2 hp.2 (C59_safe_partial hN Γ hΓ a hp.1 f s s1 _ hs ha).2 h
        | thrown x => cases h
        | fault k => cases h
    | ite c a b =>
      simp only [LStmt.exec] at h
      simp only [iexec]
      cases hc : c.eval Γ s.st with
      | ret x =>
        rw [hc] at h
        rw [show icond (abst s).st c = some x from cond_of hN hΓ hs hp.1 hc]
        cases x
        · exact none_of_none hN hΓ f b s hn.2 hp.2.2 hs h
        · exact none_of_none hN hΓ f a s hn.1 hp.2.1 hs h
      | thrown x => rw [hc] at h; cases h
      | fault k => rw [hc] at h; cases h
    | «while» c a =>
      simp only [LStmt.exec] at h
      simp only [iexec]
      cases hc : c.eval Γ s.st with
      | ret x =>
        rw [hc] at h
        rw [show icond (abst s).st c = some x from cond_of hN hΓ hs hp.1 hc]
        cases x
        · cases h
        · dsimp only at h ⊢
          rcases ha : a.exec Γ f s with _ | ⟨o1, s1⟩
          · rw [none_of_none hN hΓ f a s hn hp.2 hs ha]
          · rw [ha] at h
            cases o1 with
            | ret _ =>
              rw [C60_refines_partial hN Γ hΓ a hp.2 f s s1 hs ha (caught_same Γ f a s _ s1 hn ha)]
              exact none_of_none hN hΓ f (.while c a) s1 hn hp (C59_safe_partial hN Γ hΓ a hp.2 f s s1 _ hs ha).2 h
            | thrown x => cases h
            | fault k => cases h
      | thrown x => rw [hc] at h; cases h
      | fault k => rw [hc] at h; cases h
    | tryCatch a b => exact hn.elim
    | skip => cases h
    | assign i e => cases h
    | opAssign o i e => cases h
    | inc i => cases h
    | dec i => cases h
    | input i =>
      simp only [LStmt.exec] at h
      cases h
    | output e =>
      simp only [LStmt.exec] at h
      split at h <;> cases h

end

/-! ### the theorems -/

/-- a version of a program to which the theorems on programs apply, on the machine `A` -/
def Version (A : Arch) {N : Names} {n : Nat} (Γ : Fin n → PTy N) (p : LStmt N n) : Prop :=
  letI := A
  Careful N ∧ GoodVars Γ ∧ SCovered Γ p

/-- on the machine `A`, the program `p` ends without an exception, thrown or caught -/
def EndsWell (A : Arch) {N : Names} {n : Nat} (Γ : Fin n → PTy N) (p : LStmt N n) (s s' : LState n) : Prop :=
  letI := A
  Ends Γ p s (.ret ()) s' ∧ s'.caught = s.caught

theorem endsWell_int {A : Arch} {N : Names} {n : Nat} {Γ : Fin n → PTy N} {p : LStmt N n} (h : Version A Γ p) {s s' : LState n}
    (hs : Ranged Γ s.st) (he : EndsWell A Γ p s s') : ∃ f, iexec f p (abst s) = some (some (abst s')) := by
  let _ := A
  obtain ⟨hN, hΓ, hp⟩ := h
  obtain ⟨⟨k, hk⟩, hc⟩ := he
  exact ⟨k, C60_refines_partial hN Γ hΓ p hp k s s' hs (hk k (le_refl _)) hc⟩

/-- C83. Two versions of a program with the same text, on machines `A` and `A'`, that both end without an exception, thrown or caught, end
with the same values of all variables, the same output and the same rest of the input. -/
theorem C83_same_partial (A A' : Arch) {N N' : Names} {n : Nat} (Γ : Fin n → PTy N) (Γ' : Fin n → PTy N') (p : LStmt N n)
    (p' : LStmt N' n) (hv : Version A Γ p) (hv' : Version A' Γ' p') (ht : textS p = textS p') (s s' r r' : LState n)
    (hs : Ranged Γ s.st) (hs' : Ranged Γ' s'.st) (hss : abst s = abst s') (h : EndsWell A Γ p s r) (h' : EndsWell A' Γ' p' s' r') :
    abst r = abst r' := by
  obtain ⟨f, e⟩ := endsWell_int hv hs h
  obtain ⟨f', e'⟩ := endsWell_int hv' hs' h'
  rw [hss] at e
  exact Option.some.inj (iexec_text ht e e')

/-- C83. If one version ends without an exception, every other version without handlers ends as well: with the same result, with an
exception, or it does not compile (a policy that traps). It never runs forever and never has undefined behaviour. -/
theorem C83_ends_partial (A A' : Arch) {N N' : Names} {n : Nat} (Γ : Fin n → PTy N) (Γ' : Fin n → PTy N') (p : LStmt N n)
    (p' : LStmt N' n) (hv : Version A Γ p) (hv' : Version A' Γ' p') (ht : textS p = textS p') (hn : NoTry p') (s s' r : LState n)
    (hs : Ranged Γ s.st) (hs' : Ranged Γ' s'.st) (hss : abst s = abst s') (h : EndsWell A Γ p s r) :
    letI := A'
    (∃ r', EndsWell A' Γ' p' s' r' ∧ abst r = abst r') ∨ (∃ e r', Ends Γ' p' s' (.thrown e) r') ∨
    ∃ r', Ends Γ' p' s' (.fault .illFormed) r' := by
  let _ := A'
  obtain ⟨hN, hΓ, hp⟩ := hv'
  obtain ⟨f, e⟩ := endsWell_int hv hs h
  rw [hss] at e
  have hu : ∃ g, iexec g p' (abst s') ≠ none := text_ends ht e
  obtain ⟨g, hg⟩ := hu
  rcases hx : p'.exec Γ' g s' with _ | ⟨o, r'⟩
  · exact absurd (none_of_none hN hΓ g p' s' hn hp hs' hx) hg
  · have hb := fun k hk => C59_bound Γ' g p' s' _ hx k hk
    obtain ⟨h1, _⟩ := exec_fine hN hΓ g p' s' o r' hp hs' hx
    rcases h1 with rfl | ⟨x, rfl⟩ | rfl
    · have hc := caught_same Γ' g p' s' _ r' hn hx
      refine Or.inl ⟨r', ⟨⟨g, hb⟩, hc⟩, ?_⟩
      exact Option.some.inj (iexec_text ht e (C60_refines_partial hN Γ' hΓ p' hp g s' r' hs' hx hc))
    · exact Or.inr (Or.inl ⟨x, r', g, hb⟩)
    · exact Or.inr (Or.inr ⟨r', g, hb⟩)

/-- C83. A version all of whose policies trap, and that compiles, ends if and only if the computation does that any other version follows:
if one version ends without an exception, so does this one, with the same result. -/
theorem C83_trap_partial (A A' : Arch) {N N' : Names} {n : Nat} (Γ : Fin n → PTy N) (Γ' : Fin n → PTy N') (p : LStmt N n)
    (p' : LStmt N' n) (hv : Version A Γ p) (hv' : Version A' Γ' p') (htr : @Trapping A' N') (hcomp : @Compiles A' n N' Γ' p')
    (ht : textS p = textS p') (s s' r : LState n) (hs : Ranged Γ s.st) (hs' : Ranged Γ' s'.st) (hss : abst s = abst s')
    (h : EndsWell A Γ p s r) : ∃ r', EndsWell A' Γ' p' s' r' ∧ abst r = abst r' := by
  let _ := A'
  obtain ⟨hN, hΓ, hp⟩ := hv'
  obtain ⟨f, e⟩ := endsWell_int hv hs h
  rw [hss] at e
  obtain ⟨g, hg⟩ := text_ends ht e
  rcases C62_total_partial htr Γ' hΓ g p' s' hp hcomp hs' with ⟨_, h2⟩ | ⟨r', h1, h2, _, h4⟩
  · exact absurd h2 hg
  · exact ⟨r', ⟨⟨g, fun k hk => C59_bound Γ' g p' s' _ h1 k hk⟩, h4⟩, Option.some.inj (iexec_text ht e h2)⟩

/-! ### a program with two versions: Euclid's algorithm for 32 and for 16 bits -/

namespace Euclid

/-- a small machine: 16-bit `int`, 32-bit `intmax_t` -/
@[reducible] def small : Arch := ⟨1, 2, by decide, by decide, by decide⟩

/-- strict exceptions -/
def names16 : Names := ⟨Unit, Unit, inferInstance, inferInstance, fun _ => .native, fun _ => strictException⟩

section
attribute [local instance] small

/-- `safe<std::uint16_t, native, strict_exception_policy>` -/
abbrev w16 : PTy names16 := ⟨Opd.ofSafe u16, some (), some ()⟩

def Γ16 : Fin 3 → PTy names16 := fun _ => w16

/-- the same program, with a comparison to a constant of type `signed char`, a cast, and a handler -/
def gcd16 : LStmt names16 3 :=
  .tryCatch (.while (.cmp .ne (.var 1) (.const i8 0))
    (.seq (.assign 2 (.cast w16 (.bin (.ar .mod) (.var 0) (.var 1)))) (.seq (.assign 0 (.var 1)) (.assign 1 (.var 2)))))
    (.assign 0 (.const i8 0))

theorem has16 (x : Int) : (Opd.ofSafe u16).Has x ↔ 0 ≤ x ∧ x ≤ 65535 := Iff.rfl

theorem mod16 : OpCovered .native strictException (Opd.ofSafe u16) (Opd.ofSafe u16) (.ar .mod) := by
  have e : PP.result .native .mod (Opd.ofSafe u16) (Opd.ofSafe u16) = .ret u16 := by decide +kernel
  have e' : arithTy .native .mod (Opd.ofSafe u16) (Opd.ofSafe u16) = .ret (Opd.ofSafe u16) := by decide +kernel
  refine ⟨fun R h => ?_, fun S h => ?_⟩
  · rw [e] at h; cases h
    exact ⟨⟨by decide +kernel, by decide +kernel⟩, nofun⟩
  · rw [e'] at h; cases h
    refine ⟨by decide +kernel, fun t u ht hu h => ?_⟩
    rw [has16] at ht hu ⊢
    rw [Int.tmod_eq_emod_of_nonneg ht.1]
    have := Int.emod_nonneg t h
    have := Int.emod_lt_of_pos t (show 0 < u by omega)
    omega

theorem w16_wf : PTy.Wf w16 := ⟨by decide +kernel, nofun, fun _ => ⟨nofun, nofun⟩, nofun⟩

/-- the 16-bit version meets the conditions -/
theorem version16 : Version small Γ16 gcd16 := by
  refine ⟨⟨fun _ => Or.inl rfl, fun _ => trivial⟩, fun _ => ⟨w16_wf, Or.inr rfl⟩, ⟨⟨trivial, ⟨by decide +kernel, by decide +kernel⟩,
    fun T U h _ => ?_⟩, ⟨⟨⟨trivial, trivial, fun T U h1 h2 => ?_⟩, fun T h => ?_⟩, fun T h => ?_⟩, ⟨trivial, fun T h => ?_⟩, trivial,
    fun T h => ?_⟩, ⟨by decide +kernel, by decide +kernel⟩, fun T h => ?_⟩
  · cases h; exact Or.inl (Or.inl rfl)
  · cases h1; cases h2; exact ⟨Or.inl rfl, fun _ _ _ _ => mod16⟩
  all_goals exact ⟨w16_wf, Or.inr rfl, Or.inl rfl⟩

end

/-- so does the 32-bit version of `Props/Quiet.lean` -/
theorem version32 : Version lp64 Γ gcd := ⟨careful, good, covered⟩

/-- they have the same text -/
theorem same_text : textS gcd = textS gcd16 := rfl

/-- C83 for this program: whenever both versions end without an exception they agree. -/
example (s s' r r' : LState 3) (hs : Ranged Γ s.st) (hs' : Ranged Γ16 s'.st) (hss : abst s = abst s') (h : EndsWell lp64 Γ gcd s r)
    (h' : EndsWell small Γ16 gcd16 s' r') : abst r = abst r' :=
  C83_same_partial lp64 small Γ Γ16 gcd gcd16 version32 version16 same_text s s' r r' hs hs' hss h h'

/-- from a run of the model to `EndsWell` -/
theorem endsWell_of_run (A : Arch) {N : Names} {n : Nat} (Γ : Fin n → PTy N) (p : LStmt N n) (s : LState n) (f : Nat) (i : Fin n) (v : Int)
    (h : (match @LStmt.exec A n N Γ f p s with
      | some (.ret (), r) => decide (r.caught = s.caught ∧ r.st i = v)
      | _ => false) = true) : ∃ r, EndsWell A Γ p s r ∧ r.st i = v := by
  let _ := A
  rcases hx : p.exec Γ f s with _ | ⟨o, r⟩
  · rw [hx] at h; cases h
  · rw [hx] at h
    cases o with
    | ret _ =>
      have h := of_decide_eq_true h
      exact ⟨r, ⟨⟨f, fun k hk => C59_bound Γ f p s _ hx k hk⟩, h.1⟩, h.2⟩
    | thrown e => cases h
    | fault k => cases h

/-- the first two variables are given -/
def start {n : Nat} (x y : Int) : LState n := ⟨fun i => if i.val = 0 then x else if i.val = 1 then y else 0, ⟨[], false, false⟩, [], 0⟩

/-- both versions do end, for 48 and 36, with the result 12 -/
example : (∃ r, EndsWell lp64 Γ gcd (start 48 36) r ∧ r.st 0 = 12) ∧
    ∃ r, EndsWell small Γ16 gcd16 (start 48 36) r ∧ r.st 0 = 12 :=
  ⟨endsWell_of_run lp64 Γ gcd _ 20 0 12 (by decide +kernel), endsWell_of_run small Γ16 gcd16 _ 20 0 12 (by decide +kernel)⟩

end Euclid

namespace Port
attribute [local instance] lp64

def names : Names := ⟨Unit, Unit, inferInstance, inferInstance, fun _ => .native, fun _ => strictException⟩

def safeT (B : ITy) : PTy names := ⟨Opd.ofSafe B, some (), some ()⟩

/-- `x1 = x0 >> 1` -/
def half : LStmt names 2 := .assign 1 (.bin .shr (.var 0) (.const i32 1))

/-- C83 fails for an operator that the theorems on programs do not cover: `x1 = x0 >> 1` ends without an exception for a `safe<unsigned>`
`x1` with 500, for a `safe<unsigned char>` `x1` with 244 (the shifted value has the type of range [0, 0], C49). -/
theorem C83_refuted :
    (∃ r, EndsWell lp64 (fun _ => safeT u32) half (Euclid.start 1000 0) r ∧ r.st 1 = 500) ∧
    ∃ r, EndsWell lp64 (fun i => if i = 0 then safeT u32 else safeT u8) half (Euclid.start 1000 0) r ∧ r.st 1 = 244 :=
  ⟨Euclid.endsWell_of_run lp64 _ half _ 1 1 500 (by decide +kernel), Euclid.endsWell_of_run lp64 _ half _ 1 1 244 (by decide +kernel)⟩

end Port
end Verif.Props
