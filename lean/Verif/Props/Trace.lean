import Verif.Proofs.Trace
import Verif.Props.Blame

/-!
C89: every exception of a program comes from one of its operations; which of them throw follows from the values alone.
-/

namespace Verif.Props
open Spec Lang
section
variable [Arch]

private theorem explains_unit {N : Names} {n : Nat} {s : LState n} {i : Fin n} {x : Out Int} {l : List (Event N)} (h : Explains l 0 x) :
    (storing s i x).2.caught = s.caught + 0 ∧ Explains l 0 (storing s i x).1 := by
  rcases x with v | e | k
  · exact ⟨rfl, h⟩
  · exact ⟨rfl, h⟩
  · exact ⟨rfl, h⟩

/-- All programs, all policies, all states: the exceptions of a finished execution are those of its operations, each of them caught
or the outcome; an exception or fault that is the outcome is the one of the last operation; no other operation has a fault. -/
theorem C89_explains {N : Names} {n : Nat} (Γ : Fin n → PTy N) : ∀ (f : Nat) (p : LStmt N n) (s : LState n) (o : Out Unit)
    (s' : LState n), p.exec Γ f s = some (o, s') → ∃ k, s'.caught = s.caught + k ∧ Explains (sEvents Γ f p s) k o
  | 0, p, s, o, s', h => by cases p <;> cases h
  | f + 1, .skip, s, o, s', h => by cases h; exact ⟨0, rfl, explains_nil _⟩
  | f + 1, .assign i e, s, o, s', h => by
    simp only [LStmt.exec, Option.some.injEq] at h
    have := explains_unit (s := s) (i := i) (assign_explains Γ s.st i e)
    rw [h] at this
    exact ⟨0, this⟩
  | f + 1, .opAssign op i e, s, o, s', h => by
    simp only [LStmt.exec, Option.some.injEq] at h
    have := explains_unit (s := s) (i := i) (opAssign_explains Γ s.st op i e)
    rw [h] at this
    exact ⟨0, this⟩
  | f + 1, .inc i, s, o, s', h => by
    simp only [LStmt.exec, Option.some.injEq] at h
    have := explains_unit (s := s) (i := i) (opAssign_explains Γ s.st (.ar .add) i (.const tInt 1))
    rw [h] at this
    exact ⟨0, this⟩
  | f + 1, .dec i, s, o, s', h => by
    simp only [LStmt.exec, Option.some.injEq] at h
    have := explains_unit (s := s) (i := i) (opAssign_explains Γ s.st (.ar .sub) i (.const tInt 1))
    rw [h] at this
    exact ⟨0, this⟩
  | f + 1, .input i, s, o, s', h => by
    simp only [LStmt.exec, Option.some.injEq, Prod.mk.injEq] at h
    refine ⟨0, by rw [← h.2]; rfl, ?_⟩
    rw [← h.1]
    refine explains_one ?_
    show (inputStep (Γ i) (s.st i) s.inp).1 = void (inputStep (Γ i) (s.st i) s.inp).1
    cases (inputStep (Γ i) (s.st i) s.inp).1 <;> rfl
  | f + 1, .output e, s, o, s', h => by
    have key : Explains (sEvents Γ (f + 1) (.output e) s) 0 (do
        let T ← e.ty Γ
        let v ← e.eval Γ s.st
        outputStep T v) :=
      explains_ty (ty_st Γ e) fun T _ => explains_bind (eval_explains Γ s.st e) fun v _ => explains_one rfl
    simp only [LStmt.exec] at h
    rcases hx : (do
        let T ← e.ty Γ
        let v ← e.eval Γ s.st
        outputStep T v) with cs | x | j <;> rw [hx] at h key <;> cases h
    · exact ⟨0, rfl, key⟩
    · exact ⟨0, rfl, key⟩
    · exact ⟨0, rfl, key⟩
  | f + 1, .seq a b, s, o, s', h => by
    simp only [LStmt.exec] at h
    simp only [sEvents]
    rcases ha : a.exec Γ f s with _ | ⟨o1, s1⟩
    · rw [ha] at h; cases h
    · obtain ⟨k1, e1, h1⟩ := C89_explains Γ f a s o1 s1 ha
      rw [ha] at h
      rcases o1 with v | x | j
      · obtain ⟨k2, e2, h2⟩ := C89_explains Γ f b s1 o s' h
        exact ⟨k1 + k2, by omega, explains_then h1 h2⟩
      · cases h; exact ⟨k1, e1, by simpa using h1⟩
      · cases h; exact ⟨k1, e1, by simpa using h1⟩
  | f + 1, .ite c a b, s, o, s', h => by
    simp only [LStmt.exec] at h
    simp only [sEvents]
    have hc := cond_explains Γ s.st c
    rcases ec : c.eval Γ s.st with x | x | j <;> rw [ec] at h hc
    · cases x
      · obtain ⟨k, e, h⟩ := C89_explains Γ f b s o s' h
        exact ⟨k, e, by have := explains_then hc h; rwa [Nat.zero_add] at this⟩
      · obtain ⟨k, e, h⟩ := C89_explains Γ f a s o s' h
        exact ⟨k, e, by have := explains_then hc h; rwa [Nat.zero_add] at this⟩
    · cases h; exact ⟨0, rfl, by simp only [after, List.append_nil, Bool.false_eq_true, if_false]; exact hc⟩
    · cases h; exact ⟨0, rfl, by simp only [after, List.append_nil, Bool.false_eq_true, if_false]; exact hc⟩
  | f + 1, .while c a, s, o, s', h => by
    simp only [LStmt.exec] at h
    simp only [sEvents]
    have hc := cond_explains Γ s.st c
    rcases ec : c.eval Γ s.st with x | x | j <;> rw [ec] at h hc
    · cases x
      · cases h; exact ⟨0, rfl, by simp only [after, List.append_nil, Bool.false_eq_true, if_false]; exact hc⟩
      · dsimp only at h
        simp only [after, if_true]
        rcases ha : a.exec Γ f s with _ | ⟨o1, s1⟩
        · rw [ha] at h; cases h
        · obtain ⟨k1, e1, h1⟩ := C89_explains Γ f a s o1 s1 ha
          have h1 := explains_then hc h1
          rw [Nat.zero_add] at h1
          rw [ha] at h
          rcases o1 with v | x | j
          · obtain ⟨k2, e2, h2⟩ := C89_explains Γ f (.while c a) s1 o s' h
            exact ⟨k1 + k2, by omega, by have := explains_then h1 h2; rwa [List.append_assoc] at this⟩
          · cases h; exact ⟨k1, e1, by simpa using h1⟩
          · cases h; exact ⟨k1, e1, by simpa using h1⟩
    · cases h; exact ⟨0, rfl, by simp only [after, List.append_nil, Bool.false_eq_true, if_false]; exact hc⟩
    · cases h; exact ⟨0, rfl, by simp only [after, List.append_nil, Bool.false_eq_true, if_false]; exact hc⟩
  | f + 1, .tryCatch a b, s, o, s', h => by
    simp only [LStmt.exec] at h
    simp only [sEvents]
    rcases ha : a.exec Γ f s with _ | ⟨o1, s1⟩
    · rw [ha] at h; cases h
    · obtain ⟨k1, e1, h1⟩ := C89_explains Γ f a s o1 s1 ha
      rw [ha] at h
      rcases o1 with v | x | j
      · cases h; exact ⟨k1, e1, by simpa using h1⟩
      · obtain ⟨k2, e2, h2⟩ := C89_explains Γ f b { s1 with caught := s1.caught + 1 } o s' h
        have e2 : s'.caught = s1.caught + 1 + k2 := e2
        refine ⟨k1 + 1 + k2, by omega, ?_⟩
        refine explains_then (j := k1 + 1) (a := ()) ⟨?_, ?_⟩ h2
        · rw [h1.1]; simp [isThrown]
        · obtain ⟨_, l', ev, e, h3, h4⟩ := h1
          intro ev' hev
          rw [e] at hev
          rcases List.mem_append.1 hev with g | g
          · exact h4 _ g
          · rw [List.mem_singleton.1 g, h3]; rfl
      · cases h; exact ⟨k1, e1, by simpa using h1⟩

private theorem one_proper {N : Names} {n : Nat} : EProper (.const tInt 1 : LExpr N n) := ⟨tInt_ok, ITy.in_one tInt⟩

/-- the operands of a clean execution are within the ranges of their types (lemma for C89) -/
theorem exec_sound {N : Names} (hN : Careful N) {n : Nat} {Γ : Fin n → PTy N} (hΓ : GoodVars Γ) :
    ∀ (f : Nat) (p : LStmt N n) (s : LState n), SProper p → Ranged Γ s.st → (∀ ev ∈ sEvents Γ f p s, ev.Clean) →
      ∀ ev ∈ sEvents Γ f p s, Sound ev
  | 0, p, s, _, _, _ => by cases p <;> exact fun _ h => by cases h
  | f + 1, .skip, s, _, _, _ => fun _ h => by cases h
  | f + 1, .assign i e, s, hc, hs, h => by
    simp only [sEvents] at h ⊢
    exact sound_after h fun T eT h => sound_append h (eval_sound hN hΓ hs e hc) fun ha h => sound_after h fun t et _ =>
      sound_one ⟨(hΓ i).1, (hΓ i).2, eval_range hN hΓ hs hc ha eT et⟩
  | f + 1, .opAssign o i e, s, hc, hs, h => opAssign_sound hN hΓ hs hc h
  | f + 1, .inc i, s, hc, hs, h => opAssign_sound hN hΓ hs one_proper h
  | f + 1, .dec i, s, hc, hs, h => opAssign_sound hN hΓ hs one_proper h
  | f + 1, .input i, s, hc, hs, h => sound_one ⟨(hΓ i).1, (hΓ i).2, hs i⟩
  | f + 1, .output e, s, hc, hs, h => by
    simp only [sEvents] at h ⊢
    exact sound_after h fun T eT h => sound_append h (eval_sound hN hΓ hs e hc) fun ha h => sound_after h fun t et _ =>
      sound_one trivial
  | f + 1, .seq a b, s, hc, hs, h => by
    simp only [sEvents] at h ⊢
    refine sound_append h (exec_sound hN hΓ f a s hc.1 hs) fun ha h => ?_
    rcases ea : a.exec Γ f s with _ | ⟨o1, s1⟩
    · exact fun _ h => by cases h
    · rw [ea] at h
      rcases o1 with v | x | j
      · exact exec_sound hN hΓ f b s1 hc.2 (exec_clean hN hΓ f a s _ s1 hc.1 hs ha ea).2.1 h
      · exact fun _ h => by cases h
      · exact fun _ h => by cases h
  | f + 1, .ite c a b, s, hc, hs, h => by
    simp only [sEvents] at h ⊢
    refine sound_append h (cond_sound hN hΓ hs c hc.1) fun _ h => sound_after h fun x _ h => ?_
    cases x
    · exact exec_sound hN hΓ f b s hc.2.2 hs h
    · exact exec_sound hN hΓ f a s hc.2.1 hs h
  | f + 1, .while c a, s, hc, hs, h => by
    simp only [sEvents] at h ⊢
    refine sound_append h (cond_sound hN hΓ hs c hc.1) fun _ h => sound_after h fun x _ h => ?_
    cases x
    · exact fun _ h => by cases h
    · simp only [if_true] at h ⊢
      refine sound_append h (exec_sound hN hΓ f a s hc.2 hs) fun ha h => ?_
      rcases ea : a.exec Γ f s with _ | ⟨o1, s1⟩
      · exact fun _ h => by cases h
      · rw [ea] at h
        rcases o1 with v | x | j
        · exact exec_sound hN hΓ f (.while c a) s1 hc (exec_clean hN hΓ f a s _ s1 hc.2 hs ha ea).2.1 h
        · exact fun _ h => by cases h
        · exact fun _ h => by cases h
  | f + 1, .tryCatch a b, s, hc, hs, h => by
    simp only [sEvents] at h ⊢
    refine sound_append h (exec_sound hN hΓ f a s hc.1 hs) fun ha h => ?_
    rcases ea : a.exec Γ f s with _ | ⟨o1, s1⟩
    · exact fun _ h => by cases h
    · rw [ea] at h
      rcases o1 with v | x | j
      · exact fun _ h => by cases h
      · exact exec_sound hN hΓ f b _ hc.2 (exec_clean hN hΓ f a s _ s1 hc.1 hs ha ea).2.1 h
      · exact fun _ h => by cases h

/-- If the program is accepted by the compiler and each operation carried out is clean (`Event.Clean` of C88, a condition on types and
values), then each of them throws an exception if and only if its values do not fit. -/
theorem C89_fits {N : Names} (hN : Careful N) {n : Nat} (Γ : Fin n → PTy N) (hΓ : GoodVars Γ) (p : LStmt N n) (hp : SProper p)
    (f : Nat) (s s' : LState n) (o : Out Unit) (hs : Ranged Γ s.st) (h : p.exec Γ f s = some (o, s'))
    (ho : o ≠ .fault .illFormed) (hc : ∀ ev ∈ sEvents Γ f p s, ev.Clean) :
    ∀ ev ∈ sEvents Γ f p s, isFault ev.out = false ∧ (ev.throws = true ↔ ¬ ev.Fits) := by
  have hso := exec_sound hN hΓ f p s hp hs hc
  have hno := (C88_clean hN Γ hΓ p hp f s s' o hs h hc).1
  obtain ⟨k, _, _, he⟩ := C89_explains Γ f p s o s' h
  have hf : ∀ ev ∈ sEvents Γ f p s, isFault ev.out = false := by
    rcases o with v | x | j
    · exact he
    · obtain ⟨l', ev, e, h3, h4⟩ := he
      intro ev' hev
      rw [e] at hev
      rcases List.mem_append.1 hev with g | g
      · exact h4 _ g
      · rw [List.mem_singleton.1 g, h3]; rfl
    · cases j
      · exact absurd rfl hno.1
      · exact absurd rfl hno.2
      · exact absurd rfl ho
  intro ev hev
  refine ⟨hf ev hev, ?_⟩
  have d := event_decides hN (hso ev hev) (hc ev hev)
  have g := hf ev hev
  unfold Event.throws
  rcases hx : ev.out with v | x | j
  · exact ⟨nofun, fun h => absurd (d.2 v hx) h⟩
  · exact ⟨fun _ => d.1 x hx, fun _ => rfl⟩
  · rw [hx] at g; cases g

open Classical in
/-- The number of exceptions, caught or not, is the number of operations whose values do not fit. -/
theorem C89_count {N : Names} (hN : Careful N) {n : Nat} (Γ : Fin n → PTy N) (hΓ : GoodVars Γ) (p : LStmt N n) (hp : SProper p)
    (f : Nat) (s s' : LState n) (o : Out Unit) (hs : Ranged Γ s.st) (h : p.exec Γ f s = some (o, s'))
    (ho : o ≠ .fault .illFormed) (hc : ∀ ev ∈ sEvents Γ f p s, ev.Clean) :
    s.caught + (sEvents Γ f p s).countP (fun ev => decide (¬ ev.Fits)) = s'.caught + (if isThrown o then 1 else 0) := by
  have hf := C89_fits hN Γ hΓ p hp f s s' o hs h ho hc
  obtain ⟨k, h1, h2, _⟩ := C89_explains Γ f p s o s' h
  have : (sEvents Γ f p s).countP (fun ev => decide (¬ ev.Fits)) = (sEvents Γ f p s).countP Event.throws :=
    List.countP_congr fun ev hev => by rw [decide_eq_true_iff]; exact (hf ev hev).2.symm
  rw [this, h2]
  omega

/-- There is no exception, caught or not, if and only if the values of all operations fit; the result is then that of the program over
the integers. -/
theorem C89_quiet {N : Names} (hN : Careful N) {n : Nat} (Γ : Fin n → PTy N) (hΓ : GoodVars Γ) (p : LStmt N n) (hp : SProper p)
    (f : Nat) (s s' : LState n) (o : Out Unit) (hs : Ranged Γ s.st) (h : p.exec Γ f s = some (o, s'))
    (ho : o ≠ .fault .illFormed) (hc : ∀ ev ∈ sEvents Γ f p s, ev.Clean) :
    ((o = .ret () ∧ s'.caught = s.caught) ↔ ∀ ev ∈ sEvents Γ f p s, ev.Fits) ∧
    ((∀ ev ∈ sEvents Γ f p s, ev.Fits) → iexec f p (abst s) = some (some (abst s'))) := by
  have hf := C89_fits hN Γ hΓ p hp f s s' o hs h ho hc
  have hno := C88_clean hN Γ hΓ p hp f s s' o hs h hc
  obtain ⟨k, h1, h2, h3⟩ := C89_explains Γ f p s o s' h
  have key : (o = .ret () ∧ s'.caught = s.caught) ↔ ∀ ev ∈ sEvents Γ f p s, ev.Fits := by
    constructor
    · rintro ⟨rfl, e⟩ ev hev
      have h0 : (sEvents Γ f p s).countP Event.throws = 0 := by rw [h2]; simp [isThrown]; omega
      by_contra hn
      have := (hf ev hev).2.2 hn
      exact List.countP_eq_zero.1 h0 ev hev this
    · intro ha
      have h0 : (sEvents Γ f p s).countP Event.throws = 0 :=
        List.countP_eq_zero.2 fun ev hev g => (hf ev hev).2.1 g (ha ev hev)
      rw [h0] at h2
      rcases o with v | x | j
      · exact ⟨rfl, by simp [isThrown] at h2; omega⟩
      · simp [isThrown] at h2
      · cases j
        · exact absurd rfl hno.1.1
        · exact absurd rfl hno.1.2
        · exact absurd rfl ho
  exact ⟨key, fun ha => hno.2.2 (key.2 ha).1 (key.2 ha).2⟩

/-- An exception that ends the program comes from the last operation, whose values do not fit; if none has been caught before, those of
all others do. -/
theorem C89_last {N : Names} (hN : Careful N) {n : Nat} (Γ : Fin n → PTy N) (hΓ : GoodVars Γ) (p : LStmt N n) (hp : SProper p)
    (f : Nat) (s s' : LState n) (x : Err) (hs : Ranged Γ s.st) (h : p.exec Γ f s = some (.thrown x, s'))
    (hc : ∀ ev ∈ sEvents Γ f p s, ev.Clean) :
    ∃ l ev, sEvents Γ f p s = l ++ [ev] ∧ ev.out = .thrown x ∧ ¬ ev.Fits ∧
      (s'.caught = s.caught ↔ ∀ ev ∈ l, ev.Fits) := by
  have hf := C89_fits hN Γ hΓ p hp f s s' _ hs h nofun hc
  obtain ⟨k, h1, h2, l, ev, e, h3, h4⟩ := C89_explains Γ f p s _ s' h
  have hmem : ∀ ev' ∈ l, ev' ∈ sEvents Γ f p s := fun ev' g => by rw [e]; exact List.mem_append_left _ g
  have hlast : ev ∈ sEvents Γ f p s := by rw [e]; exact List.mem_append_right _ List.mem_cons_self
  have ht : ev.throws = true := by unfold Event.throws; rw [h3]; rfl
  refine ⟨l, ev, e, h3, (hf ev hlast).2.1 ht, ?_⟩
  have hk : l.countP Event.throws = k := by
    rw [e, List.countP_append] at h2
    simp [ht, isThrown] at h2
    omega
  constructor
  · intro g ev' hev
    by_contra hn
    exact List.countP_eq_zero.1 (by omega : l.countP Event.throws = 0) ev' hev ((hf ev' (hmem ev' hev)).2.2 hn)
  · intro g
    have : l.countP Event.throws = 0 := List.countP_eq_zero.2 fun ev' hev q => (hf ev' (hmem ev' hev)).2.1 q (g ev' hev)
    omega

end

/-! ### examples -/

namespace TraceEx
attribute [local instance] lp64
open Euclid (names careful step gcd)
open EuclidInt (w good proper gcd_clean mod_clean)

/-- Euclid's algorithm with `safe<int>`, which is not covered: for all numbers but twice `INT_MIN` -/
example (f : Nat) (s s' : LState 3) (o : Out Unit) (hs : Ranged EuclidInt.Γ s.st)
    (h0 : ¬ (s.st 0 = -2147483648 ∧ s.st 1 = -2147483648)) (h : gcd.exec EuclidInt.Γ f s = some (o, s'))
    (ho : o ≠ .fault .illFormed) :
    (o = .ret () ∧ s'.caught = s.caught) ↔ ∀ ev ∈ sEvents EuclidInt.Γ f gcd s, ev.Fits :=
  (C89_quiet careful EuclidInt.Γ good gcd proper f s s' o hs h ho (gcd_clean f s hs h0)).1

/-- the one operation that throws: `INT_MIN % 0` does not fit, `INT_MIN % 7` does -/
example : ¬ (Event.bin (.ar .mod) w w (-2147483648) 0).Fits ∧ (Event.bin (.ar .mod) w w (-2147483648) 7).Fits := by
  have e : PP.result .native .mod (Opd.ofSafe i32) (Opd.ofSafe i32) = .ret i32 := by decide +kernel
  constructor
  · intro h
    exact (h (by decide +kernel) () i32 rfl e).1 rfl
  · intro _ q R _ hR
    obtain rfl : i32 = R := Out.ret.inj (e.symm.trans hR)
    exact ⟨by decide, Or.inr ⟨by decide +kernel, by decide +kernel⟩⟩

/-- `try { a = a * b; b = b + 1; } catch(...) { a = b; }` -/
def prog : LStmt names 3 :=
  .seq (.tryCatch (.seq (.assign 0 (.bin (.ar .mul) (.var 0) (.var 1))) (.inc 1)) (.assign 0 (.var 1)))
    (.opAssign (.ar .mul) 0 (.var 1))

theorem prog_covered : SCovered EuclidInt.Γ prog := by
  have hm : ∀ T U : PTy names, EuclidInt.Γ 0 = T → EuclidInt.Γ 1 = U → BinCovered (.ar .mul) T U := fun T U hT hU => by
    subst hT; subst hU
    exact ⟨Or.inl rfl, fun _ _ _ _ => trivial⟩
  refine ⟨⟨⟨⟨⟨trivial, trivial, fun T U hT hU => hm T U (Out.ret.inj hT) (Out.ret.inj hU)⟩, fun T _ => ?_⟩, rfl⟩, trivial, fun T _ => ?_⟩, trivial,
    fun U hU => hm _ U rfl (Out.ret.inj hU)⟩
  · exact ⟨(good 0).1, (good 0).2, Or.inl rfl⟩
  · exact ⟨(good 0).1, (good 0).2, Or.inl rfl⟩

theorem prog_proper : SProper prog := ⟨⟨⟨⟨trivial, trivial⟩, trivial⟩, trivial⟩, trivial⟩

/-- the state with the values `a` and `b` -/
def start (a b : Int) : LState 3 := ⟨fun i => if i = 0 then a else b, ⟨[], false, false⟩, [], 0⟩

theorem start_ranged : Ranged EuclidInt.Γ (start 100000 50000).st := fun i => by
  show (Opd.ofSafe i32).Has (if i = 0 then 100000 else 50000)
  split <;> decide +kernel

/-- both products overflow: the first exception is caught, the second is the outcome -/
theorem prog_run : (prog.exec EuclidInt.Γ 5 (start 100000 50000)).map (fun r => (r.1, r.2.caught)) =
    some (.thrown .positive_overflow_error, 1) := by decide +kernel

open Classical in
example : (sEvents EuclidInt.Γ 5 prog (start 100000 50000)).countP (fun ev => decide (¬ ev.Fits)) = 2 ∧
    ∃ l ev, sEvents EuclidInt.Γ 5 prog (start 100000 50000) = l ++ [ev] ∧ ¬ ev.Fits ∧ ¬ ∀ ev ∈ l, ev.Fits := by
  have hr := prog_run
  rcases h : prog.exec EuclidInt.Γ 5 (start 100000 50000) with _ | ⟨o, s'⟩ <;> rw [h] at hr
  · cases hr
  · obtain ⟨rfl, h1⟩ : o = _ ∧ s'.caught = 1 := Prod.mk.inj (Option.some.inj hr)
    have hc := C88_covered careful EuclidInt.Γ good 5 prog (start 100000 50000) prog_covered start_ranged
    have c := C89_count careful EuclidInt.Γ good prog prog_proper 5 _ s' _ start_ranged h nofun hc
    obtain ⟨l, ev, e1, _, e3, e4⟩ := C89_last careful EuclidInt.Γ good prog prog_proper 5 _ s' _ start_ranged h hc
    refine ⟨?_, l, ev, e1, e3, fun g => ?_⟩
    · rw [h1] at c
      have c : 0 + _ = 1 + 1 := c
      omega
    · have := e4.2 g
      rw [h1] at this
      cases this

end TraceEx
end Verif.Props
