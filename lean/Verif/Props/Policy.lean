import Verif.LangSpec
import Verif.Proofs.Policy

/-!
Property C91: exception policies. What the handlers do matters only where one of them is called: an operation, and a whole program, behaves
the same under all policies, those with handlers written by the user included, until an error is raised; and policies whose handlers
react alike cannot be told apart by any program.
-/

namespace Verif.Props
open Spec

/-! ### C91, single operations -/
section
variable [Arch]

/-- Under the stricter policy an operator gives what it gives under the other one, or throws an error for which the handler of the other
one returns. -/
theorem C91_operators (q p : EP) (h : Stricter q p) (pp : PP) (o : Op2) (T U : Opd) (t u : Int) :
    o.safeVal pp q T U t u = o.safeVal pp p T U t u ∨
    ∃ e, o.safeVal pp q T U t u = .thrown e ∧ dispatch q e = .thrown e ∧ dispatch p e = .ret () :=
  upto_op h pp o T U t u

/-- Likewise comparisons. -/
theorem C91_comparisons (q p : EP) (h : Stricter q p) (pp : PP) (o : Rel) (T U : Opd) (t u : Int) :
    compare pp q o T U t u = compare pp p o T U t u ∨
    ∃ e, compare pp q o T U t u = .thrown e ∧ dispatch q e = .thrown e ∧ dispatch p e = .ret () :=
  upto_compare h pp o T U t u

/-- Likewise construction, assignment and conversion of safe types. -/
theorem C91_conversions (q p : EP) (h : Stricter q p) (S T : Opd) (R : ITy) (t : Int) :
    (construct q S T t = construct p S T t ∨
      ∃ e, construct q S T t = .thrown e ∧ dispatch q e = .thrown e ∧ dispatch p e = .ret ()) ∧
    (toBuiltin q R T t = toBuiltin p R T t ∨
      ∃ e, toBuiltin q R T t = .thrown e ∧ dispatch q e = .thrown e ∧ dispatch p e = .ret ()) ∧
    (toBool q T t = toBool p T t ∨ ∃ e, toBool q T t = .thrown e ∧ dispatch q e = .thrown e ∧ dispatch p e = .ret ()) ∧
    (defaultConstruct q = defaultConstruct p ∨
      ∃ e, defaultConstruct q = .thrown e ∧ dispatch q e = .thrown e ∧ dispatch p e = .ret ()) := by
  refine ⟨?_, upto_toBuiltin h R T t, upto_toBool h T t, upto_default h⟩
  unfold construct
  exact Upto.ite (.refl _) (upto_validate h ..)

/-- Likewise input; then the value read and the state of the stream agree as well. -/
theorem C91_input (q p : EP) (h : Stricter q p) (T : Opd) (old : Int) (s : IStream) :
    input q T old s = input p T old s ∨
    ∃ e, (input q T old s).1 = .thrown e ∧ dispatch q e = .thrown e ∧ dispatch p e = .ret () :=
  upto_input h T old s

end

/-! ### C91, policies -/

/-- The policy that throws for everything is stricter than every policy that compiles. -/
theorem C91_strictest (p : EP) (h1 : p.ae ≠ .trap) (h2 : p.idb ≠ .trap) (h3 : p.uv ≠ .trap) :
    Stricter ⟨.throw, .throw, .throw, .throw⟩ p := by
  have key : ∀ (b : Act) (e : Err), b ≠ .trap → (Act.throw.run e = b.run e ∨ Act.throw.run e = .thrown e ∧ b.run e = .ret ()) := by
    intro b e hb
    cases b with
    | ignore => exact Or.inr ⟨rfl, rfl⟩
    | trap => exact absurd rfl hb
    | throw => exact Or.inl rfl
    | user f =>
      show _ = (if f.contains e then Out.ret () else Out.thrown e) ∨ _ ∧ (if f.contains e then Out.ret () else Out.thrown e) = _
      cases f.contains e
      · exact Or.inl rfl
      · exact Or.inr ⟨rfl, rfl⟩
  intro e
  cases e <;> first | exact Or.inl rfl | exact key _ _ h1 | exact key _ _ h2 | exact key _ _ h3

/-- A handler of the user for arithmetic errors behaves like `throw_exception` exactly if it returns for no arithmetic error. -/
theorem C91_user_throw (p : EP) (f : List Err) :
    Alike { p with ae := .user f } { p with ae := .throw } ↔ ∀ e ∈ f, makeAction e ≠ .arithmetic_error := by
  constructor
  · intro h e he ha
    have h := h e
    have hc : f.contains e = true := by simpa using he
    unfold dispatch EP.act at h
    rw [ha] at h
    change (if f.contains e then Out.ret () else Out.thrown e) = Out.thrown e at h
    rw [if_pos hc] at h
    cases h
  · intro h e
    have key : makeAction e = .arithmetic_error → (if f.contains e then Out.ret () else Out.thrown e) = (Out.thrown e : Out Unit) := by
      intro ha
      rw [if_neg]
      intro hc
      exact h e (by simpa using hc) ha
    cases e <;> first | rfl | exact key rfl

/-- It behaves like `ignore_exception` exactly if it returns for every arithmetic error. -/
theorem C91_user_ignore (p : EP) (f : List Err) :
    Alike { p with ae := .user f } { p with ae := .ignore } ↔ ∀ e, makeAction e = .arithmetic_error → e ∈ f := by
  constructor
  · intro h e ha
    have h := h e
    unfold dispatch EP.act at h
    rw [ha] at h
    change (if f.contains e then Out.ret () else Out.thrown e) = Out.ret () at h
    by_contra hn
    rw [if_neg (by simpa using hn)] at h
    cases h
  · intro h e
    have key : makeAction e = .arithmetic_error → (if f.contains e then Out.ret () else Out.thrown e) = (Out.ret () : Out Unit) := by
      intro ha
      rw [if_pos]
      simpa using h e ha
    cases e <;> first | rfl | exact key rfl

/-! ### C91, whole programs -/
section
variable [Arch]

/-- No program can tell policies apart whose handlers react alike. -/
theorem C91_alike {N : Names} (a : N.E → EP) (h : ∀ n, Alike (N.act n) (a n)) (Γ : Fin n → PTy N) (f : Nat) (p : LStmt N n) (s : LState n) :
    (underS a p).exec (fun i => underT a (Γ i)) f s = p.exec Γ f s := by
  have hs : ∀ n, Stricter (N.act n) (a n) := fun n e => Or.inl (h n e)
  induction f generalizing p s with
  | zero => rfl
  | succ f ih =>
    cases p with
    | skip => rfl
    | assign i e => simp only [underS, LStmt.exec, ← (upto_assignVal hs Γ s.st i e).eq h]
    | opAssign o i e => simp only [underS, LStmt.exec, ← (upto_opAssignVal hs Γ s.st o i e).eq h]
    | inc i =>
      have k := (upto_opAssignVal hs Γ s.st (.ar .add) i (.const tInt 1)).eq h
      simp only [underE] at k
      simp only [underS, LStmt.exec, ← k]
    | dec i =>
      have k := (upto_opAssignVal hs Γ s.st (.ar .sub) i (.const tInt 1)).eq h
      simp only [underE] at k
      simp only [underS, LStmt.exec, ← k]
    | input i =>
      rcases upto_inputStep hs (Γ i) (s.st i) s.inp with k | ⟨e, n, _, k1, k2⟩
      · simp only [underS, LStmt.exec, ← k]
      · rw [h n e, k2] at k1; cases k1
    | output e => simp only [underS, LStmt.exec, ← (upto_output hs Γ s.st e).eq h]
    | seq x y =>
      simp only [underS, LStmt.exec, ih]
    | ite c x y =>
      simp only [underS, LStmt.exec, ih, ← (upto_cond hs Γ s.st c).eq h]
    | «while» c x =>
      have ihw := fun s => ih (.while c x) s
      simp only [underS] at ihw
      simp only [underS, LStmt.exec, ih, ihw, ← (upto_cond hs Γ s.st c).eq h]
    | tryCatch x y =>
      simp only [underS, LStmt.exec, ih]

/-- an execution under the policies of the program, and what is the case if it is to end differently under the policies `a` -/
private def Differs (N : Names) (a : N.E → EP) (o : Out Unit) (s s' : LState n) : Prop :=
  (∃ e m, o = .thrown e ∧ dispatch (N.act m) e = .thrown e ∧ dispatch (a m) e = .ret ()) ∨ s.caught < s'.caught

private theorem storing_upto {N : Names} {a : N.E → EP} {s : LState n} {i : Fin n} {v v' : Out Int} (h : UptoN N a v v') :
    (storing s i v).2.caught = s.caught ∧ (storing s i v' = storing s i v ∨ Differs N a (storing s i v).1 s (storing s i v).2) := by
  refine ⟨by cases v <;> rfl, ?_⟩
  rcases h with rfl | ⟨e, m, rfl, h⟩
  · exact Or.inl rfl
  · exact Or.inr (Or.inl ⟨e, m, rfl, h⟩)

private theorem exec_upto {N : Names} {a : N.E → EP} (h : ∀ n, Stricter (N.act n) (a n)) (Γ : Fin n → PTy N) (f : Nat) :
    ∀ (p : LStmt N n) (s : LState n) (o : Out Unit) (s' : LState n), p.exec Γ f s = some (o, s') →
      s.caught ≤ s'.caught ∧ ((underS a p).exec (fun i => underT a (Γ i)) f s = some (o, s') ∨ Differs N a o s s') := by
  have store : ∀ {s : LState n} {i : Fin n} {v v' : Out Int} {o : Out Unit} {s' : LState n}, UptoN N a v v' →
      some (storing s i v) = some (o, s') → s.caught ≤ s'.caught ∧ (some (storing s i v') = some (o, s') ∨ Differs N a o s s') := by
    intro s i v v' o s' hu he
    have he := Option.some.inj he
    have k := storing_upto (s := s) (i := i) hu
    rw [he] at k
    exact ⟨le_of_eq k.1.symm, k.2.imp (congrArg some) id⟩
  induction f with
  | zero => intro p s o s' he; cases he
  | succ f ih =>
    intro p s o s' he
    cases p with
    | skip => cases he; exact ⟨le_refl _, Or.inl rfl⟩
    | assign i e => exact store (upto_assignVal h Γ s.st i e) he
    | opAssign o i e => exact store (upto_opAssignVal h Γ s.st o i e) he
    | inc i => exact store (upto_opAssignVal h Γ s.st (.ar .add) i (.const tInt 1)) he
    | dec i => exact store (upto_opAssignVal h Γ s.st (.ar .sub) i (.const tInt 1)) he
    | input i =>
      have he := Option.some.inj he
      rcases upto_inputStep h (Γ i) (s.st i) s.inp with k | ⟨e, m, k1, k2⟩
      · cases he
        refine ⟨le_refl _, Or.inl ?_⟩
        simp only [underS, LStmt.exec, ← k]
      · cases he
        exact ⟨le_refl _, Or.inr (Or.inl ⟨e, m, k1, k2⟩)⟩
    | output e =>
      have k := upto_output h Γ s.st e
      simp only [LStmt.exec] at he
      simp only [underS, LStmt.exec]
      rcases k with k | ⟨x, m, k1, k2⟩
      · rw [← k]
        refine ⟨?_, Or.inl he⟩
        split at he <;> cases he <;> exact le_refl _
      · rw [k1] at he
        cases he
        exact ⟨le_refl _, Or.inr (Or.inl ⟨x, m, rfl, k2⟩)⟩
    | seq x y =>
      simp only [LStmt.exec] at he
      simp only [underS, LStmt.exec]
      rcases hx : x.exec Γ f s with _ | ⟨o1, s1⟩
      · rw [hx] at he; cases he
      · rw [hx] at he
        obtain ⟨l1, k1⟩ := ih x s o1 s1 hx
        cases o1 with
        | ret _ =>
          obtain ⟨l2, k2⟩ := ih y s1 o s' he
          refine ⟨le_trans l1 l2, ?_⟩
          rcases k1 with k1 | ⟨_, _, hc, _⟩ | k1
          · rw [k1]
            rcases k2 with k2 | k2 | k2
            · exact Or.inl k2
            · exact Or.inr (Or.inl k2)
            · exact Or.inr (Or.inr (by omega))
          · cases hc
          · exact Or.inr (Or.inr (by omega))
        | thrown e =>
          cases he
          refine ⟨l1, ?_⟩
          rcases k1 with k1 | k1
          · rw [k1]; exact Or.inl rfl
          · exact Or.inr k1
        | fault e =>
          cases he
          refine ⟨l1, ?_⟩
          rcases k1 with k1 | k1
          · rw [k1]; exact Or.inl rfl
          · exact Or.inr k1
    | ite c x y =>
      simp only [LStmt.exec] at he
      simp only [underS, LStmt.exec]
      rcases upto_cond h Γ s.st c with k | ⟨e, m, k1, k2⟩
      · rw [← k]
        rcases hc : c.eval Γ s.st with b | e | e
        · rw [hc] at he
          cases b
          · exact ih y s o s' he
          · exact ih x s o s' he
        · rw [hc] at he; cases he; exact ⟨le_refl _, Or.inl rfl⟩
        · rw [hc] at he; cases he; exact ⟨le_refl _, Or.inl rfl⟩
      · rw [k1] at he; cases he
        exact ⟨le_refl _, Or.inr (Or.inl ⟨e, m, rfl, k2⟩)⟩
    | «while» c x =>
      simp only [LStmt.exec] at he
      simp only [underS, LStmt.exec]
      rcases upto_cond h Γ s.st c with k | ⟨e, m, k1, k2⟩
      · rw [← k]
        rcases hc : c.eval Γ s.st with b | e | e
        · rw [hc] at he
          cases b
          · cases he; exact ⟨le_refl _, Or.inl rfl⟩
          · dsimp only at he ⊢
            rcases hx : x.exec Γ f s with _ | ⟨o1, s1⟩
            · rw [hx] at he; cases he
            · rw [hx] at he
              obtain ⟨l1, k1⟩ := ih x s o1 s1 hx
              cases o1 with
              | ret _ =>
                obtain ⟨l2, k2⟩ := ih (.while c x) s1 o s' he
                refine ⟨le_trans l1 l2, ?_⟩
                rcases k1 with k1 | ⟨_, _, hc, _⟩ | k1
                · rw [k1]
                  rcases k2 with k2 | k2 | k2
                  · exact Or.inl k2
                  · exact Or.inr (Or.inl k2)
                  · exact Or.inr (Or.inr (by omega))
                · cases hc
                · exact Or.inr (Or.inr (by omega))
              | thrown e =>
                cases he
                refine ⟨l1, ?_⟩
                rcases k1 with k1 | k1
                · rw [k1]; exact Or.inl rfl
                · exact Or.inr k1
              | fault e =>
                cases he
                refine ⟨l1, ?_⟩
                rcases k1 with k1 | k1
                · rw [k1]; exact Or.inl rfl
                · exact Or.inr k1
        · rw [hc] at he; cases he; exact ⟨le_refl _, Or.inl rfl⟩
        · rw [hc] at he; cases he; exact ⟨le_refl _, Or.inl rfl⟩
      · rw [k1] at he; cases he
        exact ⟨le_refl _, Or.inr (Or.inl ⟨e, m, rfl, k2⟩)⟩
    | tryCatch x y =>
      simp only [LStmt.exec] at he
      simp only [underS, LStmt.exec]
      rcases hx : x.exec Γ f s with _ | ⟨o1, s1⟩
      · rw [hx] at he; cases he
      · rw [hx] at he
        obtain ⟨l1, k1⟩ := ih x s o1 s1 hx
        cases o1 with
        | thrown _ =>
          obtain ⟨l2, _⟩ := ih y _ o s' he
          have l2 : s1.caught + 1 ≤ s'.caught := l2
          exact ⟨by omega, Or.inr (Or.inr (by omega))⟩
        | ret e =>
          cases he
          refine ⟨l1, ?_⟩
          rcases k1 with k1 | k1
          · rw [k1]; exact Or.inl rfl
          · exact Or.inr k1
        | fault e =>
          cases he
          refine ⟨l1, ?_⟩
          rcases k1 with k1 | k1
          · rw [k1]; exact Or.inl rfl
          · exact Or.inr k1

/-- A program that ends under strict policies without having caught an exception ends in the same way, in the same state, under every
less strict choice of policies: the handlers (ignoring, logging, throwing for some codes only) were not called. The other
possibility is that it ends with an exception for which the other handler would have returned. -/
theorem C91_transparent {N : Names} (a : N.E → EP) (h : ∀ n, Stricter (N.act n) (a n)) (Γ : Fin n → PTy N) (f : Nat) (p : LStmt N n)
    (s s' : LState n) (o : Out Unit) (he : p.exec Γ f s = some (o, s')) (hc : s'.caught = s.caught) :
    (underS a p).exec (fun i => underT a (Γ i)) f s = some (o, s') ∨
    ∃ e m, o = .thrown e ∧ dispatch (N.act m) e = .thrown e ∧ dispatch (a m) e = .ret () := by
  rcases (exec_upto h Γ f p s o s' he).2 with k | k | k
  · exact Or.inl k
  · exact Or.inr k
  · omega

/-- A program whose handlers of arithmetic errors never return is a careful one, up to the names: it behaves as with
`throw_exception` (or `trap_exception`) in their places. So whatever is proved of careful programs holds with handlers written by the
user as long as they do not return. -/
theorem C91_careful (N : Names) (hw : ∀ q, (N.prom q).Wf)
    (hr : ∀ m e, makeAction e = .arithmetic_error → dispatch (N.act m) e ≠ .ret ()) :
    ∃ a : N.E → EP, Careful (underN N a) ∧
      ∀ (n : Nat) (Γ : Fin n → PTy N) (f : Nat) (p : LStmt N n) (s : LState n),
        (underS a p).exec (fun i => underT a (Γ i)) f s = p.exec Γ f s := by
  refine ⟨fun m => { N.act m with ae := if (N.act m).ae = .trap then .trap else .throw }, ⟨?_, hw⟩, ?_⟩
  · intro m
    show (if (N.act m).ae = .trap then Act.trap else Act.throw) = _ ∨ (if (N.act m).ae = .trap then Act.trap else Act.throw) = _
    split
    · exact Or.inr rfl
    · exact Or.inl rfl
  · intro n Γ f p s
    refine C91_alike _ (fun m e => ?_) Γ f p s
    have key : makeAction e = .arithmetic_error → (N.act m).ae.run e = (if (N.act m).ae = .trap then Act.trap else Act.throw).run e := by
      intro ha
      have k := hr m e ha
      unfold dispatch EP.act at k
      rw [ha] at k
      dsimp only at k
      revert k
      cases (N.act m).ae with
      | ignore => intro k; exact absurd rfl k
      | trap => intro _; rfl
      | throw => intro _; rfl
      | user g =>
        intro k
        change (if g.contains e then Out.ret () else Out.thrown e) ≠ .ret () at k
        change (if g.contains e then Out.ret () else Out.thrown e) = _
        by_cases hg : g.contains e = true
        · rw [if_pos hg] at k; exact absurd rfl k
        · rw [if_neg hg, if_neg (by simp)]; rfl
    cases e <;> first | rfl | exact key rfl

end

/-! ### the hypotheses can be met -/
section
attribute [local instance] lp64

/-- a handler that returns for overflows upwards and throws for the others -/
private def mixed : EP := ⟨.user [.positive_overflow_error], .throw, .throw, .ignore⟩

example : Stricter ⟨.throw, .throw, .throw, .throw⟩ mixed := C91_strictest _ (by decide) (by decide) (by decide)
example : ¬ Alike mixed ⟨.throw, .throw, .throw, .ignore⟩ := by
  intro h; have := h .positive_overflow_error; revert this; decide
example : Alike ⟨.user [.shift_too_large], .throw, .throw, .throw⟩ ⟨.throw, .throw, .throw, .throw⟩ :=
  (C91_user_throw ⟨.throw, .throw, .throw, .throw⟩ _).2 (by decide)
/- both possibilities occur, and the second one really differs -/
example : arith .native strictException .add (Opd.ofSafe i32) (Opd.ofSafe i32) 1 2 = .ret 3 ∧
    arith .native mixed .add (Opd.ofSafe i32) (Opd.ofSafe i32) 1 2 = .ret 3 ∧
    arith .native mixed .add (Opd.ofSafe i32) (Opd.ofSafe i32) (-2147483648) (-1) = .thrown .negative_overflow_error ∧
    arith .native strictException .add (Opd.ofSafe u32) (Opd.ofSafe u32) 4294967295 1 = .thrown .positive_overflow_error ∧
    arith .native mixed .add (Opd.ofSafe u32) (Opd.ofSafe u32) 4294967295 1 = .ret 0 := by decide +kernel

@[reducible] private def names : Names := ⟨Unit, Unit, inferInstance, inferInstance, fun _ => .native, fun _ => strictException⟩
private def vars : Fin 1 → PTy names := fun _ => ⟨Opd.ofSafe u32, some (), some ()⟩
private def prog : LStmt names 1 := .seq (.inc 0) (.output (.var 0))
private def start (k : Int) : LState 1 := ⟨fun _ => k, ⟨[], true, false⟩, [], 0⟩

/- `++x; cout << x` from 41: no error, the same under the mixed policy; from the largest value only the strict one throws -/
example : ∀ n, Stricter (names.act n) ((fun _ => mixed) n) := by
  intro _ e; cases e <;> first | exact Or.inl rfl | exact Or.inr ⟨rfl, rfl⟩
example : (prog.exec vars 5 (start 41)).map (fun r => (r.1, r.2.out, r.2.caught)) = some (.ret (), ['4', '2'], 0) ∧
    ((underS (fun _ => mixed) prog).exec (fun i => underT (fun _ => mixed) (vars i)) 5 (start 41)).map
      (fun r => (r.1, r.2.out, r.2.caught)) = some (.ret (), ['4', '2'], 0) ∧
    (prog.exec vars 5 (start 4294967295)).map (fun r => (r.1, r.2.out, r.2.caught)) = some (.thrown .positive_overflow_error, [], 0) ∧
    ((underS (fun _ => mixed) prog).exec (fun i => underT (fun _ => mixed) (vars i)) 5 (start 4294967295)).map
      (fun r => (r.1, r.2.out, r.2.caught)) = some (.ret (), ['0'], 0) := by decide +kernel

/- a careful program in disguise -/
example : ∀ e, makeAction e = .arithmetic_error → dispatch ⟨.user [.negative_shift], .ignore, .ignore, .ignore⟩ e ≠ .ret () := by
  intro e h; cases e <;> first | (cases h; done) | decide

end
end Verif.Props
