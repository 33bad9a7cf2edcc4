import Verif.MaySpec
import Verif.Props.PortBlame
import Verif.Props.Run

/-!
C88 for programs with exception handlers: whenever an execution, with exceptions caught on the way, ends otherwise than over the
integers, one of the operations it carries out is one that is known to go wrong.
-/

namespace Verif.Props
open Spec Lang
section
variable [Arch]

/-- statements that store or write one value leave the input stream and the counter alone; if they throw, they change nothing -/
private theorem basic_keeps {N : Names} {n : Nat} {Γ : Fin n → PTy N} {p : LStmt N n} (hb : Basic p) {f : Nat} {s s' : LState n}
    {o : Out Unit} (h : p.exec Γ (f + 1) s = some (o, s')) : s'.caught = s.caught ∧ s'.inp = s.inp ∧ ((∃ e, o = .thrown e) → s' = s) := by
  cases p <;> first | exact hb.elim | skip
  all_goals simp only [LStmt.exec] at h
  · cases h; exact ⟨rfl, rfl, fun ⟨_, h⟩ => by cases h⟩
  · rcases hx : assignVal Γ s.st _ _ with v | x | k <;> rw [hx] at h <;> cases h <;> exact ⟨rfl, rfl, fun ⟨_, h⟩ => by cases h <;> rfl⟩
  · rcases hx : opAssignVal Γ s.st _ _ _ with v | x | k <;> rw [hx] at h <;> cases h <;> exact ⟨rfl, rfl, fun ⟨_, h⟩ => by cases h <;> rfl⟩
  · rcases hx : opAssignVal Γ s.st _ _ _ with v | x | k <;> rw [hx] at h <;> cases h <;> exact ⟨rfl, rfl, fun ⟨_, h⟩ => by cases h <;> rfl⟩
  · rcases hx : opAssignVal Γ s.st _ _ _ with v | x | k <;> rw [hx] at h <;> cases h <;> exact ⟨rfl, rfl, fun ⟨_, h⟩ => by cases h <;> rfl⟩
  · split at h <;> cases h <;> exact ⟨rfl, rfl, fun ⟨_, h⟩ => by cases h <;> rfl⟩

/-- If all operations that an execution carries out are clean, it ends as the program may end over the integers when statements are
free to throw: with the same values of the variables, the same output and the same rest of the input, normally or by an
exception; or the program does not compile. Exceptions may be caught on the way, any number of times. -/
theorem C88_handlers {N : Names} (hN : Careful N) {n : Nat} (Γ : Fin n → PTy N) (hΓ : GoodVars Γ) :
    ∀ (f : Nat) (p : LStmt N n) (s s' : LState n) (o : Out Unit), SProper p → Ranged Γ s.st →
      (∀ ev ∈ sEvents Γ f p s, ev.Clean) → p.exec Γ f s = some (o, s') →
      (∃ b, Matches b o ∧ May Γ p (seen s) b (seen s')) ∨ o = .fault .illFormed
  | 0, p, s, s', o, _, _, _, h => by cases p <;> cases h
  | f + 1, p, s, s', o, hp, hs, hl, h => by
    have basic : Basic p → (∃ b, Matches b o ∧ May Γ p (seen s) b (seen s')) ∨ o = .fault .illFormed := fun hb => by
      obtain ⟨h1, _, _, h4⟩ := exec_clean hN hΓ (f + 1) p s o s' hp hs hl h
      obtain ⟨k1, k2, k3⟩ := basic_keeps hb h
      rcases h1 with rfl | ⟨e, rfl⟩ | rfl
      · have h4 := h4 rfl k1
        have e1 : iexec 1 p (seen s).ints = some (some (abst s')) := by rw [← h4]; cases p <;> first | exact hb.elim | rfl
        have e2 : seen s' = (seen s).put (abst s') := by unfold seen RState.put; rw [k2]; rfl
        exact Or.inl ⟨true, rfl, by rw [e2]; exact .basic hb e1⟩
      · rw [k3 ⟨e, rfl⟩]
        exact Or.inl ⟨false, ⟨e, rfl⟩, .basicExc hb⟩
      · exact Or.inr rfl
    cases p with
    | skip => exact basic trivial
    | assign i e => exact basic trivial
    | opAssign op i e => exact basic trivial
    | inc i => exact basic trivial
    | dec i => exact basic trivial
    | output e => exact basic trivial
    | input i =>
      simp only [LStmt.exec, Option.some.injEq] at h
      obtain ⟨hr, hi⟩ := input_clean hN (hΓ i).1 (hΓ i).2 (clean_one hl) (hs i)
      obtain ⟨ho, hs'⟩ := Prod.mk.inj h
      have e : seen s' = (seen s).read i (inputStep (Γ i) (s.st i) s.inp).2.1 (inputStep (Γ i) (s.st i) s.inp).2.2 := by
        rw [← hs']; rfl
      rcases hi with ⟨neg, k, rest, n1, n3⟩ | ⟨x, hi⟩ | hi
      · refine Or.inl ⟨true, by rw [← ho, n3]; rfl, ?_⟩
        rw [e, n3]
        exact .input n1
      · exact Or.inl ⟨false, ⟨x, by rw [← ho, hi]⟩, by rw [e]; exact .inputExc hr⟩
      · exact Or.inr (by rw [← ho, hi])
    | seq a b =>
      simp only [LStmt.exec] at h
      rcases ha : a.exec Γ f s with _ | ⟨o1, s1⟩ <;> rw [ha] at h
      · cases h
      · have k2 := (exec_clean hN hΓ f a s o1 s1 hp.1 hs (clean_left hl) ha).2.1
        rcases C88_handlers hN Γ hΓ f a s s1 o1 hp.1 hs (clean_left hl) ha with ⟨x, m, r⟩ | rfl
        · cases x
          · obtain ⟨e, rfl⟩ := m
            cases h
            exact Or.inl ⟨false, ⟨e, rfl⟩, .seqExc r⟩
          · cases m
            rcases C88_handlers hN Γ hΓ f b s1 s' o hp.2 k2 (by have hl := clean_right hl; rw [ha] at hl; exact hl) h with
              ⟨y, m, r'⟩ | rfl
            · exact Or.inl ⟨y, m, .seq r r'⟩
            · exact Or.inr rfl
        · cases h; exact Or.inr rfl
    | ite c a b =>
      simp only [LStmt.exec] at h
      rcases cond_clean hN hΓ hs c hp.1 (clean_left hl) with ⟨x, h1, h2⟩ | ⟨e, h1⟩ | h1 <;> rw [h1] at h
      · have hl := clean_after h1 (clean_right hl)
        cases x
        · rcases C88_handlers hN Γ hΓ f b s s' o hp.2.2 hs hl h with ⟨y, m, r⟩ | rfl
          · exact Or.inl ⟨y, m, .iteFalse h2 r⟩
          · exact Or.inr rfl
        · rcases C88_handlers hN Γ hΓ f a s s' o hp.2.1 hs hl h with ⟨y, m, r⟩ | rfl
          · exact Or.inl ⟨y, m, .iteTrue h2 r⟩
          · exact Or.inr rfl
      · cases h; exact Or.inl ⟨false, ⟨e, rfl⟩, .iteExc⟩
      · cases h; exact Or.inr rfl
    | «while» c a =>
      simp only [LStmt.exec] at h
      rcases cond_clean hN hΓ hs c hp.1 (clean_left hl) with ⟨x, h1, h2⟩ | ⟨e, h1⟩ | h1 <;> rw [h1] at h
      · have hl := clean_after h1 (clean_right hl)
        cases x
        · cases h; exact Or.inl ⟨true, rfl, .whileFalse h2⟩
        · dsimp only at h
          rw [if_pos rfl] at hl
          rcases ha : a.exec Γ f s with _ | ⟨o1, s1⟩ <;> rw [ha] at h
          · cases h
          · have k2 := (exec_clean hN hΓ f a s o1 s1 hp.2 hs (clean_left hl) ha).2.1
            rcases C88_handlers hN Γ hΓ f a s s1 o1 hp.2 hs (clean_left hl) ha with ⟨x, m, r⟩ | rfl
            · cases x
              · obtain ⟨e, rfl⟩ := m
                cases h
                exact Or.inl ⟨false, ⟨e, rfl⟩, .whileBody h2 r⟩
              · cases m
                rcases C88_handlers hN Γ hΓ f (.while c a) s1 s' o hp k2 (by have hl := clean_right hl; rw [ha] at hl; exact hl) h with
                  ⟨y, m, r'⟩ | rfl
                · exact Or.inl ⟨y, m, .whileTrue h2 r r'⟩
                · exact Or.inr rfl
            · cases h; exact Or.inr rfl
      · cases h; exact Or.inl ⟨false, ⟨e, rfl⟩, .whileExc⟩
      · cases h; exact Or.inr rfl
    | tryCatch a b =>
      simp only [LStmt.exec] at h
      rcases ha : a.exec Γ f s with _ | ⟨o1, s1⟩ <;> rw [ha] at h
      · cases h
      · have k2 := (exec_clean hN hΓ f a s o1 s1 hp.1 hs (clean_left hl) ha).2.1
        rcases C88_handlers hN Γ hΓ f a s s1 o1 hp.1 hs (clean_left hl) ha with ⟨x, m, r⟩ | rfl
        · cases x
          · obtain ⟨e, rfl⟩ := m
            rcases C88_handlers hN Γ hΓ f b { s1 with caught := s1.caught + 1 } s' o hp.2 k2
              (by have hl := clean_right hl; rw [ha] at hl; exact hl) h with ⟨y, m, r'⟩ | rfl
            · exact Or.inl ⟨y, m, .catch r r'⟩
            · exact Or.inr rfl
          · cases m
            cases h
            exact Or.inl ⟨true, rfl, .try r⟩
        · cases h; exact Or.inr rfl

/-- The same read backwards: an execution that ends, normally or by an exception, as the program cannot end over the integers has
carried out an operation that is not clean. -/
theorem C88_blame_handlers {N : Names} (hN : Careful N) {n : Nat} (Γ : Fin n → PTy N) (hΓ : GoodVars Γ) (p : LStmt N n)
    (hp : SProper p) (f : Nat) (s s' : LState n) (b : Bool) (o : Out Unit) (hs : Ranged Γ s.st) (h : p.exec Γ f s = some (o, s'))
    (hb : Matches b o) (hw : ¬ May Γ p (seen s) b (seen s')) : ∃ ev ∈ sEvents Γ f p s, ¬ ev.Clean := by
  by_contra hn
  push Not at hn
  rcases C88_handlers hN Γ hΓ f p s s' o hp hs hn h with ⟨c, hc, hm⟩ | rfl
  · cases b <;> cases c
    · exact hw hm
    · obtain ⟨e, rfl⟩ := hb; cases hc
    · obtain ⟨e, rfl⟩ := hc; cases hb
    · exact hw hm
  · cases b
    · obtain ⟨e, hb⟩ := hb; cases hb
    · cases hb

/-- Endless executions: as long as an execution of clean operations is not finished, the program over the integers, with statements
free to throw, need not be either. -/
private theorem unfinished_clean {N : Names} (hN : Careful N) {n : Nat} {Γ : Fin n → PTy N} (hΓ : GoodVars Γ) :
    ∀ (f : Nat) (p : LStmt N n) (s : LState n), SProper p → Ranged Γ s.st → (∀ ev ∈ sEvents Γ f p s, ev.Clean) → p.exec Γ f s = none →
      MayGo Γ f p (seen s)
  | 0, p, s, _, _, _, _ => .zero
  | f + 1, p, s, hp, hs, hl, h => by
    cases p with
    | seq a b =>
      simp only [LStmt.exec] at h
      rcases ha : a.exec Γ f s with _ | ⟨o1, s1⟩ <;> rw [ha] at h
      · exact .seq (unfinished_clean hN hΓ f a s hp.1 hs (clean_left hl) ha)
      · have k2 := (exec_clean hN hΓ f a s o1 s1 hp.1 hs (clean_left hl) ha).2.1
        cases o1 with
        | ret u =>
          have r : May Γ a (seen s) true (seen s1) := by
            rcases C88_handlers hN Γ hΓ f a s s1 _ hp.1 hs (clean_left hl) ha with ⟨x, m, r⟩ | m
            · cases x
              · obtain ⟨e, m⟩ := m; cases m
              · exact r
            · cases m
          exact .seqNext r (unfinished_clean hN hΓ f b s1 hp.2 k2 (by have hl := clean_right hl; rw [ha] at hl; exact hl) h)
        | thrown x => cases h
        | fault k => cases h
    | ite c a b =>
      simp only [LStmt.exec] at h
      rcases cond_clean hN hΓ hs c hp.1 (clean_left hl) with ⟨x, h1, h2⟩ | ⟨e, h1⟩ | h1 <;> rw [h1] at h
      · have hl := clean_after h1 (clean_right hl)
        cases x
        · exact .iteFalse h2 (unfinished_clean hN hΓ f b s hp.2.2 hs hl h)
        · exact .iteTrue h2 (unfinished_clean hN hΓ f a s hp.2.1 hs hl h)
      · cases h
      · cases h
    | «while» c a =>
      simp only [LStmt.exec] at h
      rcases cond_clean hN hΓ hs c hp.1 (clean_left hl) with ⟨x, h1, h2⟩ | ⟨e, h1⟩ | h1 <;> rw [h1] at h
      · have hl := clean_after h1 (clean_right hl)
        cases x
        · cases h
        · dsimp only at h
          rw [if_pos rfl] at hl
          rcases ha : a.exec Γ f s with _ | ⟨o1, s1⟩ <;> rw [ha] at h
          · exact .while h2 (unfinished_clean hN hΓ f a s hp.2 hs (clean_left hl) ha)
          · have k2 := (exec_clean hN hΓ f a s o1 s1 hp.2 hs (clean_left hl) ha).2.1
            cases o1 with
            | ret u =>
              have r : May Γ a (seen s) true (seen s1) := by
                rcases C88_handlers hN Γ hΓ f a s s1 _ hp.2 hs (clean_left hl) ha with ⟨x, m, r⟩ | m
                · cases x
                  · obtain ⟨e, m⟩ := m; cases m
                  · exact r
                · cases m
              exact .whileNext h2 r (unfinished_clean hN hΓ f (.while c a) s1 hp k2
                (by have hl := clean_right hl; rw [ha] at hl; exact hl) h)
            | thrown x => cases h
            | fault k => cases h
      · cases h
      · cases h
    | tryCatch a b =>
      simp only [LStmt.exec] at h
      rcases ha : a.exec Γ f s with _ | ⟨o1, s1⟩ <;> rw [ha] at h
      · exact .try (unfinished_clean hN hΓ f a s hp.1 hs (clean_left hl) ha)
      · have k2 := (exec_clean hN hΓ f a s o1 s1 hp.1 hs (clean_left hl) ha).2.1
        cases o1 with
        | ret u => cases h
        | thrown x =>
          have r : May Γ a (seen s) false (seen s1) := by
            rcases C88_handlers hN Γ hΓ f a s s1 _ hp.1 hs (clean_left hl) ha with ⟨x, m, r⟩ | m
            · cases x
              · exact r
              · cases m
            · cases m
          exact .catch r (unfinished_clean hN hΓ f b { s1 with caught := s1.caught + 1 } hp.2 k2
            (by have hl := clean_right hl; rw [ha] at hl; exact hl) h)
        | fault k => cases h
    | input i => simp only [LStmt.exec] at h; cases h
    | output e =>
      simp only [LStmt.exec] at h
      split at h <;> cases h
    | _ => cases h

/-- If over the integers a program always ends within `f` nested steps, wherever its statements throw, and its execution is not
finished within so many steps, then among the operations it has carried out there is one that is not clean. -/
theorem C88_endless_handlers {N : Names} (hN : Careful N) {n : Nat} (Γ : Fin n → PTy N) (hΓ : GoodVars Γ) (p : LStmt N n)
    (hp : SProper p) (f : Nat) (s : LState n) (hs : Ranged Γ s.st) (h : p.exec Γ f s = none) (hi : ¬ MayGo Γ f p (seen s)) :
    ∃ ev ∈ sEvents Γ f p s, ¬ ev.Clean := by
  by_contra hn
  push Not at hn
  exact hi (unfinished_clean hN hΓ f p s hp hs hn h)

omit [Arch] in
/-- without handlers, what the program may do when it ends normally is what it does over the integers -/
theorem C88_may {N : Names} {n : Nat} (Γ : Fin n → PTy N) (p : LStmt N n) (s s' : RState n) (b : Bool) (h : May Γ p s b s') :
    NoTry p → b = true → ∃ f, iexec f p s.ints = some (some s'.ints) := by
  have up : ∀ (f g : Nat) (p : LStmt N n) (s : IState n) (r : Option (IState n)), f ≤ g → iexec f p s = some r → iexec g p s = some r :=
    fun f g p s r hfg h => iexec_mono f p s r h g hfg
  induction h with
  | @basic p t s hb h =>
    intro _ _
    refine ⟨1, ?_⟩
    rw [h]
    congr 2
    cases p <;> first | exact hb.elim | skip
    all_goals simp only [iexec, Option.some.injEq] at h
    · cases h; rfl
    · rcases hv : ival s.ints.st _ with _ | v <;> rw [hv] at h <;> cases h; rfl
    · rename_i op i e _
      rcases hv : ival s.ints.st e with _ | v
      · rw [hv] at h; cases h
      · rw [hv] at h
        have h : (imath op (s.ints.st i) v).bind (fun w => some (s.ints.write i w)) = some t := h
        rcases hw : imath op (s.ints.st i) v with _ | w <;> rw [hw] at h <;> cases h; rfl
    · cases h; rfl
    · cases h; rfl
    · rcases hv : ival s.ints.st _ with _ | v <;> rw [hv] at h <;> cases h; rfl
  | basicExc => intro _ h; cases h
  | @input sg k i s r h =>
    intro _ _
    refine ⟨1, ?_⟩
    show some ((iread s.inp.buf).map _) = _
    rw [(C60_iread _ _ _).2 ⟨_, h⟩]; rfl
  | inputExc => intro _ h; cases h
  | @seq a s s1 b r s' h1 h2 ih1 ih2 =>
    intro hn hb
    obtain ⟨f, e1⟩ := ih1 hn.1 rfl
    obtain ⟨g, e2⟩ := ih2 hn.2 hb
    refine ⟨max f g + 1, ?_⟩
    simp only [iexec]
    rw [up f _ a _ _ (le_max_left f g) e1]
    exact up g _ b _ _ (le_max_right f g) e2
  | seqExc => intro _ h; cases h
  | @iteTrue c a s r s' b h1 h2 ih =>
    intro hn hb
    obtain ⟨f, e1⟩ := ih hn.1 hb
    refine ⟨f + 1, ?_⟩
    simp only [iexec]
    rw [show icond s.ints.st c = some true from h1]
    exact e1
  | @iteFalse c b s r s' a h1 h2 ih =>
    intro hn hb
    obtain ⟨f, e1⟩ := ih hn.2 hb
    refine ⟨f + 1, ?_⟩
    simp only [iexec]
    rw [show icond s.ints.st c = some false from h1]
    exact e1
  | iteExc => intro _ h; cases h
  | @whileTrue c a s s1 r s' h1 h2 h3 ih1 ih2 =>
    intro hn hb
    obtain ⟨f, e1⟩ := ih1 hn rfl
    obtain ⟨g, e2⟩ := ih2 hn hb
    refine ⟨max f g + 1, ?_⟩
    simp only [iexec]
    rw [show icond s.ints.st c = some true from h1]
    dsimp only
    rw [up f _ a _ _ (le_max_left f g) e1]
    exact up g _ _ _ _ (le_max_right f g) e2
  | whileBody => intro _ h; cases h
  | @whileFalse c a s h1 =>
    intro _ _
    refine ⟨1, ?_⟩
    simp only [iexec]
    rw [show icond s.ints.st c = some false from h1]
  | whileExc => intro _ h; cases h
  | «try» => intro hn; exact hn.elim
  | «catch» => intro hn; exact hn.elim

end

/-! ### a program that is not covered: a remainder of `safe<int>` with a handler -/

namespace EuclidInt
attribute [local instance] lp64
open Euclid (names careful)

/-- `try { z = x % y; } catch(...) { z = 0; }` -/
def guarded : LStmt names 3 := .tryCatch (.assign 2 (.bin (.ar .mod) (.var 0) (.var 1))) (.assign 2 (.const i32 0))

theorem guarded_proper : SProper guarded := ⟨⟨trivial, trivial⟩, by decide +kernel, by decide +kernel⟩

theorem may_assign {e : LExpr names 3} {t t' : RState 3} (h : May Γ (.assign 2 e) t true t') : ival t.st e = some (t'.st 2) := by
  cases h with
  | basic hb h1 =>
    have h1 : some ((ival t.st e).map (t.ints.write 2)) = _ := h1
    rcases hv : ival t.st e with _ | v <;> rw [hv] at h1 <;> cases h1
    rfl

theorem may_try {a b : LStmt names 3} {t t' : RState 3} (h : May Γ (.tryCatch a b) t true t') :
    May Γ a t true t' ∨ ∃ t1, May Γ a t false t1 ∧ May Γ b t1 true t' := by
  cases h with
  | basic hb => exact hb.elim
  | «try» h1 => exact Or.inl h1
  | «catch» h1 h2 => exact Or.inr ⟨_, h1, h2⟩

theorem guarded_clean (f : Nat) (s : LState 3) (hs : Ranged Γ s.st) (h : ¬ (s.st 0 = -2147483648 ∧ s.st 1 = -2147483648)) :
    ∀ ev ∈ sEvents Γ f guarded s, ev.Clean := by
  match f with
  | 0 => exact fun _ h => by cases h
  | f + 1 =>
    refine all_append ?_ ?_
    · match f with
      | 0 => exact fun _ h => by cases h
      | f + 1 =>
        exact all_after fun T _ => all_append (all_after fun A hA => all_after fun B hB => all_append (fun _ h => by cases h) <|
          all_after fun t ht => all_append (fun _ h => by cases h) <| all_after fun u hu => all_one <| by
            cases hA; cases hB; cases ht; cases hu
            exact mod_clean (hs 0) (hs 1) h) <| all_after fun v _ => all_one fun g => by cases g
    · split
      · match f with
        | 0 => exact fun _ h => by cases h
        | f + 1 => exact all_after fun T _ => all_append (fun _ h => by cases h) <| all_after fun v _ => all_one fun g => by cases g
      · exact fun _ h => by cases h

/-- unless both numbers are `INT_MIN`, the program ends with the remainder or with zero, or it throws -/
example (f : Nat) (s s' : LState 3) (o : Out Unit) (hs : Ranged Γ s.st) (h0 : ¬ (s.st 0 = -2147483648 ∧ s.st 1 = -2147483648))
    (h : guarded.exec Γ f s = some (o, s')) (ho : o = .ret ()) : s'.st 2 = (s.st 0).tmod (s.st 1) ∨ s'.st 2 = 0 := by
  subst ho
  rcases C88_handlers careful Γ good f guarded s s' _ guarded_proper hs (guarded_clean f s hs h0) h with ⟨b, hb, hm⟩ | h
  swap
  · cases h
  cases b
  · obtain ⟨e, hb⟩ := hb; cases hb
  rcases may_try hm with h1 | ⟨s1, _, h2⟩
  · have h1 : ((if s.st 1 = 0 then none else some ((s.st 0).tmod (s.st 1))) : Option Int) = some (s'.st 2) := may_assign h1
    split at h1
    · cases h1
    · exact Or.inl (Option.some.inj h1).symm
  · exact Or.inr (Option.some.inj (may_assign h2)).symm

/-- a division by zero is caught -/
example : (guarded.exec Γ 5 ⟨fun i => if i = 0 then 7 else 0, ⟨[], false, false⟩, [], 0⟩).map (fun r => (r.1, r.2.st 2, r.2.caught)) =
    some (.ret (), 0, 1) := by decide +kernel

/-- with `INT_MIN` twice the result is neither: an operation is to blame -/
example : ∃ ev ∈ sEvents Γ 2 guarded bad, ¬ ev.Clean := by
  refine C88_blame_handlers careful Γ good guarded guarded_proper 2 bad bad true (.ret ())
    (fun _ => show (Opd.ofSafe i32).Has (-2147483648) by decide +kernel) ?_ rfl fun hm => ?_
  · have e1 : assignVal Γ bad.st 2 (.bin (.ar .mod) (.var 0) (.var 1)) = .ret (-2147483648) := by decide +kernel
    simp only [guarded, LStmt.exec, e1, storing, bad_write]
  · rcases may_try hm with h1 | ⟨s1, _, h2⟩
    · exact absurd (may_assign h1) (by decide +kernel)
    · have h2 : some (0 : Int) = some (bad.st 2) := may_assign h2
      exact absurd h2 (by decide +kernel)

/-- `while(y != 0) { try { y = x % y; } catch(...) { y = 0; } }` -/
def guardedLoop : LStmt names 3 := .while (.cmp .ne (.var 1) (.const i32 0))
  (.tryCatch (.assign 1 (.bin (.ar .mod) (.var 0) (.var 1))) (.assign 1 (.const i32 0)))

theorem guardedLoop_proper : SProper guardedLoop :=
  ⟨⟨trivial, by decide +kernel, by decide +kernel⟩, ⟨trivial, trivial⟩, by decide +kernel, by decide +kernel⟩

theorem may_assign1 {e : LExpr names 3} {t t' : RState 3} (h : May Γ (.assign 1 e) t true t') : ival t.st e = some (t'.st 1) := by
  cases h with
  | basic hb h1 =>
    have h1 : some ((ival t.st e).map (t.ints.write 1)) = _ := h1
    rcases hv : ival t.st e with _ | v <;> rw [hv] at h1 <;> cases h1
    rfl

theorem mayGo_assign {f : Nat} {e : LExpr names 3} {t : RState 3} (h : MayGo Γ (f + 1) (.assign 1 e) t) : False := by cases h

theorem mayGo_zero {f : Nat} {t : RState 3} (h : MayGo Γ (f + 1) guardedLoop t) (h0 : t.st 1 = 0) : False := by
  have e : icond t.st (.cmp .ne (.var 1) (.const i32 0) : LCond names 3) = some (decide (t.st 1 ≠ 0)) := rfl
  cases h with
  | «while» h1 h2 => rw [e, h0] at h1; cases h1
  | whileNext h1 h2 h3 => rw [e, h0] at h1; cases h1

/-- over the integers the loop ends, from two equal numbers, after one round -/
theorem mayGo_same {f : Nat} {t : RState 3} (h : MayGo Γ (f + 3) guardedLoop t) (h0 : t.st 0 = t.st 1) : False := by
  cases h with
  | «while» h1 h2 =>
    cases h2 with
    | «try» h2 => exact mayGo_assign h2
    | «catch» _ h2 => exact mayGo_assign h2
  | whileNext h1 h2 h3 =>
    refine mayGo_zero h3 ?_
    rcases may_try h2 with h2 | ⟨s1, _, h2⟩
    · have h2 := may_assign1 h2
      have e : ival t.st (.bin (.ar .mod) (.var 0) (.var 1) : LExpr names 3) =
        if t.st 1 = 0 then none else some ((t.st 0).tmod (t.st 1)) := rfl
      rw [e] at h2
      split at h2
      · cases h2
      · rw [h0, Int.tmod_self] at h2
        exact (Option.some.inj h2).symm
    · exact (Option.some.inj (may_assign1 h2)).symm

/-- with `INT_MIN` twice it goes on for ever -/
theorem guardedLoop_endless : ∀ f, guardedLoop.exec Γ f bad = none
  | 0 => rfl
  | f + 1 => by
    have e0 : LCond.eval Γ bad.st (.cmp .ne (.var 1) (.const i32 0) : LCond names 3) = .ret true := by decide +kernel
    have e1 : assignVal Γ bad.st 1 (.bin (.ar .mod) (.var 0) (.var 1)) = .ret (-2147483648) := by decide +kernel
    have e2 := bad_write 1
    have ih := guardedLoop_endless f
    unfold guardedLoop at ih ⊢
    match f with
    | 0 => simp only [LStmt.exec, e0]
    | 1 => simp only [LStmt.exec, e0]
    | f + 2 =>
      rw [LStmt.exec, e0]
      simp only
      rw [show (LStmt.tryCatch (.assign 1 (.bin (.ar .mod) (.var 0) (.var 1))) (.assign 1 (.const i32 0)) : LStmt names 3).exec Γ (f + 2) bad =
        some (.ret (), bad) by simp only [LStmt.exec, e1, storing, e2]]
      exact ih

example (f : Nat) : ∃ ev ∈ sEvents Γ (f + 3) guardedLoop bad, ¬ ev.Clean :=
  C88_endless_handlers careful Γ good guardedLoop guardedLoop_proper (f + 3) bad
    (fun _ => show (Opd.ofSafe i32).Has (-2147483648) by decide +kernel) (guardedLoop_endless _) fun h => mayGo_same h rfl

end EuclidInt
end Verif.Props
