import Verif.Props.Big
import Verif.Props.Phase
import Verif.OrderSpec

/-!
C92: the order in which the operands of operators are evaluated.
-/

namespace Verif.Props
open Spec Lang

section
variable [Arch]

private theorem stops_ret {α β : Type} {v : β} {q : Out α} : ¬ Aborts q (.ret v) := by intro h; cases h
private theorem ret_stops {α β : Type} {v : α} {r : Out β} : ¬ Aborts (Out.ret v) r := by intro h; cases h

private theorem stops_or {β : Type} (o : Out α) : (∃ v, o = .ret v) ∨ ∃ r : Out β, Aborts o r := by
  cases o with
  | ret v => exact Or.inl ⟨v, rfl⟩
  | thrown e => exact Or.inr ⟨_, .thrown e⟩
  | fault k => exact Or.inr ⟨_, .fault k⟩

private theorem stops_bind {α β : Type} {o : Out α} {r : Out β} (h : Aborts o r) (f : α → Out β) : (o >>= f) = r := by
  cases h <;> rfl

/-- from left to right is one of the orders -/
private theorem eval_any {N : Names} {n : Nat} (Γ : Fin n → PTy N) (s : Fin n → Int) : ∀ e : LExpr N n, AnyE Γ s e (e.eval Γ s)
  | .var i => .var i
  | .const B k => .const B k
  | .lit L => .lit L
  | .bin o a b => by
    have ha := eval_any Γ s a
    have hb := eval_any Γ s b
    unfold LExpr.eval
    rcases stops_or (β := Int) (a.ty Γ) with ⟨T, t1⟩ | ⟨r, t1⟩
    · rcases stops_or (β := Int) (b.ty Γ) with ⟨U, t2⟩ | ⟨r, t2⟩
      · rcases stops_or (β := Int) (a.eval Γ s) with ⟨x, e1⟩ | ⟨r, e1⟩
        · rcases stops_or (β := Int) (b.eval Γ s) with ⟨y, e2⟩ | ⟨r, e2⟩
          · rw [e1] at ha; rw [e2] at hb
            rw [t1, t2, e1, e2]
            exact .bin t1 t2 ha hb
          · rw [t1, t2, e1, ret_bind, ret_bind, ret_bind, stops_bind e2]
            exact .binR hb e2
        · rw [t1, t2, ret_bind, ret_bind, stops_bind e1]
          exact .binL ha e1
      · rw [t1, ret_bind, stops_bind t2]
        exact .binTyR t2
    · rw [stops_bind t1]
      exact .binTyL t1
  | .neg a => by
    have ha := eval_any Γ s a
    unfold LExpr.eval
    rcases stops_or (β := Int) (a.ty Γ) with ⟨T, t1⟩ | ⟨r, t1⟩
    · rcases stops_or (β := Int) (a.eval Γ s) with ⟨x, e1⟩ | ⟨r, e1⟩
      · rw [e1] at ha
        rw [t1, e1]
        exact .neg t1 ha
      · rw [t1, ret_bind, stops_bind e1]
        exact .negErr ha e1
    · rw [stops_bind t1]
      exact .negTy t1
  | .pos a => .pos (eval_any Γ s a)
  | .cast S a => by
    have ha := eval_any Γ s a
    unfold LExpr.eval
    rcases stops_or (β := Int) (a.ty Γ) with ⟨T, t1⟩ | ⟨r, t1⟩
    · rcases stops_or (β := Int) (a.eval Γ s) with ⟨x, e1⟩ | ⟨r, e1⟩
      · rw [e1] at ha
        rw [t1, e1]
        exact .cast t1 ha
      · rw [t1, ret_bind, stops_bind e1]
        exact .castErr ha e1
    · rw [stops_bind t1]
      exact .castTy t1

/-- a value in some order is the value from left to right; and what is left in some order is left from left to right -/
private theorem any_eval {N : Names} {n : Nat} {Γ : Fin n → PTy N} {s : Fin n → Int} {e : LExpr N n} {r : Out Int} (h : AnyE Γ s e r) :
    (∀ v, r = .ret v → e.eval Γ s = .ret v) ∧ ((∀ v, r ≠ .ret v) → ∀ v, e.eval Γ s ≠ .ret v) := by
  induction h with
  | var i => exact ⟨fun v h => h, fun h => absurd rfl (h _)⟩
  | const B k => exact ⟨fun v h => h, fun h => absurd rfl (h _)⟩
  | lit L => exact ⟨fun v h => h, fun h => absurd rfl (h _)⟩
  | bin t1 t2 _ _ ih1 ih2 =>
    have e1 := ih1.1 _ rfl
    have e2 := ih2.1 _ rfl
    unfold LExpr.eval
    rw [t1, t2, e1, e2]
    exact ⟨fun v h => h, fun h v g => h v g⟩
  | @binL a q r o b _ st ih =>
    refine ⟨fun v h => absurd (h ▸ st) stops_ret, fun _ v g => ?_⟩
    have hn := ih.2 (fun v h => ret_stops (h ▸ st))
    unfold LExpr.eval at g
    rcases hta : a.ty Γ with T | x | x <;> rw [hta] at g <;> try cases g
    rcases htb : b.ty Γ with U | x | x <;> rw [htb] at g <;> try cases g
    rcases hea : a.eval Γ s with y | x | x <;> rw [hea] at g <;> try cases g
    exact hn y hea
  | @binR b q r o a _ st ih =>
    refine ⟨fun v h => absurd (h ▸ st) stops_ret, fun _ v g => ?_⟩
    have hn := ih.2 (fun v h => ret_stops (h ▸ st))
    unfold LExpr.eval at g
    rcases hta : a.ty Γ with T | x | x <;> rw [hta] at g <;> try cases g
    rcases htb : b.ty Γ with U | x | x <;> rw [htb] at g <;> try cases g
    rcases hea : a.eval Γ s with y | x | x <;> rw [hea] at g <;> try cases g
    rcases heb : b.eval Γ s with z | x | x <;> rw [heb] at g <;> try cases g
    exact hn z heb
  | binTyL st =>
    refine ⟨fun v h => absurd (h ▸ st) stops_ret, fun hr v g => ?_⟩
    unfold LExpr.eval at g
    rw [stops_bind st] at g
    exact hr v g
  | @binTyR r o a b st =>
    refine ⟨fun v h => absurd (h ▸ st) stops_ret, fun hr v g => ?_⟩
    unfold LExpr.eval at g
    rcases hta : a.ty Γ with T | x | x <;> rw [hta] at g <;> try cases g
    rw [ret_bind, stops_bind st] at g
    exact hr v g
  | neg t1 _ ih =>
    have e1 := ih.1 _ rfl
    unfold LExpr.eval
    rw [t1, e1]
    exact ⟨fun v h => h, fun h v g => h v g⟩
  | @negErr a q r _ st ih =>
    refine ⟨fun v h => absurd (h ▸ st) stops_ret, fun _ v g => ?_⟩
    have hn := ih.2 (fun v h => ret_stops (h ▸ st))
    unfold LExpr.eval at g
    rcases hta : a.ty Γ with T | x | x <;> rw [hta] at g <;> try cases g
    rcases hea : a.eval Γ s with y | x | x <;> rw [hea] at g <;> try cases g
    exact hn y hea
  | negTy st =>
    refine ⟨fun v h => absurd (h ▸ st) stops_ret, fun hr v g => ?_⟩
    unfold LExpr.eval at g
    rw [stops_bind st] at g
    exact hr v g
  | pos _ ih => exact ih
  | cast t1 _ ih =>
    have e1 := ih.1 _ rfl
    unfold LExpr.eval
    rw [t1, e1]
    exact ⟨fun v h => h, fun h v g => h v g⟩
  | @castErr a q r S _ st ih =>
    refine ⟨fun v h => absurd (h ▸ st) stops_ret, fun _ v g => ?_⟩
    have hn := ih.2 (fun v h => ret_stops (h ▸ st))
    unfold LExpr.eval at g
    rcases hta : a.ty Γ with T | x | x <;> rw [hta] at g <;> try cases g
    rcases hea : a.eval Γ s with y | x | x <;> rw [hea] at g <;> try cases g
    exact hn y hea
  | castTy st =>
    refine ⟨fun v h => absurd (h ▸ st) stops_ret, fun hr v g => ?_⟩
    unfold LExpr.eval at g
    rw [stops_bind st] at g
    exact hr v g

/-- Expressions. From left to right is one of the orders. If one order gives a value then so does every order, the same one. -/
theorem C92_expr {N : Names} {n : Nat} (Γ : Fin n → PTy N) (s : Fin n → Int) (e : LExpr N n) :
    AnyE Γ s e (e.eval Γ s) ∧ ∀ v r, AnyE Γ s e (.ret v) → AnyE Γ s e r → r = .ret v := by
  refine ⟨eval_any Γ s e, fun v r h g => ?_⟩
  have h := (any_eval h).1 v rfl
  by_cases hr : ∃ w, r = .ret w
  · obtain ⟨w, rfl⟩ := hr
    rw [← h, (any_eval g).1 w rfl]
  · push Not at hr
    exact absurd h ((any_eval g).2 hr v)

private theorem ceval_any {N : Names} {n : Nat} (Γ : Fin n → PTy N) (s : Fin n → Int) : ∀ c : LCond N n, AnyC Γ s c (c.eval Γ s)
  | .cmp o a b => by
    have ha := eval_any Γ s a
    have hb := eval_any Γ s b
    unfold LCond.eval
    rcases stops_or (β := Bool) (a.ty Γ) with ⟨T, t1⟩ | ⟨r, t1⟩
    · rcases stops_or (β := Bool) (b.ty Γ) with ⟨U, t2⟩ | ⟨r, t2⟩
      · rcases stops_or (β := Bool) (a.eval Γ s) with ⟨x, e1⟩ | ⟨r, e1⟩
        · rcases stops_or (β := Bool) (b.eval Γ s) with ⟨y, e2⟩ | ⟨r, e2⟩
          · rw [e1] at ha; rw [e2] at hb
            rw [t1, t2, e1, e2]
            exact .cmp t1 t2 ha hb
          · rw [t1, t2, e1, ret_bind, ret_bind, ret_bind, stops_bind e2]
            exact .cmpR hb e2
        · rw [t1, t2, ret_bind, ret_bind, stops_bind e1]
          exact .cmpL ha e1
      · rw [t1, ret_bind, stops_bind t2]
        exact .cmpTyR t2
    · rw [stops_bind t1]
      exact .cmpTyL t1
  | .truth a => by
    have ha := eval_any Γ s a
    unfold LCond.eval
    rcases stops_or (β := Bool) (a.ty Γ) with ⟨T, t1⟩ | ⟨r, t1⟩
    · rcases stops_or (β := Bool) (a.eval Γ s) with ⟨x, e1⟩ | ⟨r, e1⟩
      · rw [e1] at ha
        rw [t1, e1]
        exact .truth t1 ha
      · rw [t1, ret_bind, stops_bind e1]
        exact .truthErr ha e1
    · rw [stops_bind t1]
      exact .truthTy t1
  | .not a => by
    have ha := ceval_any Γ s a
    unfold LCond.eval
    rcases stops_or (β := Bool) (a.eval Γ s) with ⟨x, e1⟩ | ⟨r, e1⟩
    · rw [e1] at ha; rw [e1]; exact .not ha
    · rw [stops_bind e1]; exact .notErr ha e1
  | .and a b => by
    have ha := ceval_any Γ s a
    have hb := ceval_any Γ s b
    unfold LCond.eval
    rcases stops_or (β := Bool) (a.eval Γ s) with ⟨x, e1⟩ | ⟨r, e1⟩
    · rw [e1] at ha; rw [e1]
      cases x
      · exact .andF ha
      · exact .andT ha hb
    · rw [stops_bind e1]; exact .andErr ha e1
  | .or a b => by
    have ha := ceval_any Γ s a
    have hb := ceval_any Γ s b
    unfold LCond.eval
    rcases stops_or (β := Bool) (a.eval Γ s) with ⟨x, e1⟩ | ⟨r, e1⟩
    · rw [e1] at ha; rw [e1]
      cases x
      · exact .orF ha hb
      · exact .orT ha
    · rw [stops_bind e1]; exact .orErr ha e1

private theorem any_ceval {N : Names} {n : Nat} {Γ : Fin n → PTy N} {s : Fin n → Int} {c : LCond N n} {r : Out Bool} (h : AnyC Γ s c r) :
    (∀ v, r = .ret v → c.eval Γ s = .ret v) ∧ ((∀ v, r ≠ .ret v) → ∀ v, c.eval Γ s ≠ .ret v) := by
  induction h with
  | cmp t1 t2 h1 h2 =>
    have e1 := (any_eval h1).1 _ rfl
    have e2 := (any_eval h2).1 _ rfl
    unfold LCond.eval
    rw [t1, t2, e1, e2]
    exact ⟨fun v h => h, fun h v g => h v g⟩
  | @cmpL a q r o b h st =>
    refine ⟨fun v h => absurd (h ▸ st) stops_ret, fun _ v g => ?_⟩
    have hn := (any_eval h).2 (fun v h => ret_stops (h ▸ st))
    unfold LCond.eval at g
    rcases hta : a.ty Γ with T | x | x <;> rw [hta] at g <;> try cases g
    rcases htb : b.ty Γ with U | x | x <;> rw [htb] at g <;> try cases g
    rcases hea : a.eval Γ s with y | x | x <;> rw [hea] at g <;> try cases g
    exact hn y hea
  | @cmpR b q r o a h st =>
    refine ⟨fun v h => absurd (h ▸ st) stops_ret, fun _ v g => ?_⟩
    have hn := (any_eval h).2 (fun v h => ret_stops (h ▸ st))
    unfold LCond.eval at g
    rcases hta : a.ty Γ with T | x | x <;> rw [hta] at g <;> try cases g
    rcases htb : b.ty Γ with U | x | x <;> rw [htb] at g <;> try cases g
    rcases hea : a.eval Γ s with y | x | x <;> rw [hea] at g <;> try cases g
    rcases heb : b.eval Γ s with z | x | x <;> rw [heb] at g <;> try cases g
    exact hn z heb
  | cmpTyL st =>
    refine ⟨fun v h => absurd (h ▸ st) stops_ret, fun hr v g => ?_⟩
    unfold LCond.eval at g
    rw [stops_bind st] at g
    exact hr v g
  | @cmpTyR r o a b st =>
    refine ⟨fun v h => absurd (h ▸ st) stops_ret, fun hr v g => ?_⟩
    unfold LCond.eval at g
    rcases hta : a.ty Γ with T | x | x <;> rw [hta] at g <;> try cases g
    rw [ret_bind, stops_bind st] at g
    exact hr v g
  | truth t1 h =>
    have e1 := (any_eval h).1 _ rfl
    unfold LCond.eval
    rw [t1, e1]
    exact ⟨fun v h => h, fun h v g => h v g⟩
  | @truthErr a q r h st =>
    refine ⟨fun v h => absurd (h ▸ st) stops_ret, fun _ v g => ?_⟩
    have hn := (any_eval h).2 (fun v h => ret_stops (h ▸ st))
    unfold LCond.eval at g
    rcases hta : a.ty Γ with T | x | x <;> rw [hta] at g <;> try cases g
    rcases hea : a.eval Γ s with y | x | x <;> rw [hea] at g <;> try cases g
    exact hn y hea
  | truthTy st =>
    refine ⟨fun v h => absurd (h ▸ st) stops_ret, fun hr v g => ?_⟩
    unfold LCond.eval at g
    rw [stops_bind st] at g
    exact hr v g
  | not _ ih =>
    have e1 := ih.1 _ rfl
    unfold LCond.eval
    rw [e1]
    exact ⟨fun v h => h, fun h v g => h v g⟩
  | @notErr a q r _ st ih =>
    refine ⟨fun v h => absurd (h ▸ st) stops_ret, fun _ v g => ?_⟩
    have hn := ih.2 (fun v h => ret_stops (h ▸ st))
    unfold LCond.eval at g
    rcases hea : a.eval Γ s with y | x | x <;> rw [hea] at g <;> try cases g
    exact hn y hea
  | andT _ _ ih1 ih2 =>
    have e1 := ih1.1 _ rfl
    unfold LCond.eval
    rw [e1]
    exact ih2
  | andF _ ih =>
    have e1 := ih.1 _ rfl
    unfold LCond.eval
    rw [e1]
    exact ⟨fun v h => h, fun h v g => h v g⟩
  | @andErr a q r b _ st ih =>
    refine ⟨fun v h => absurd (h ▸ st) stops_ret, fun _ v g => ?_⟩
    have hn := ih.2 (fun v h => ret_stops (h ▸ st))
    unfold LCond.eval at g
    rcases hea : a.eval Γ s with y | x | x
    · exact hn y hea
    · rw [hea] at g; cases g
    · rw [hea] at g; cases g
  | orF _ _ ih1 ih2 =>
    have e1 := ih1.1 _ rfl
    unfold LCond.eval
    rw [e1]
    exact ih2
  | orT _ ih =>
    have e1 := ih.1 _ rfl
    unfold LCond.eval
    rw [e1]
    exact ⟨fun v h => h, fun h v g => h v g⟩
  | @orErr a q r b _ st ih =>
    refine ⟨fun v h => absurd (h ▸ st) stops_ret, fun _ v g => ?_⟩
    have hn := ih.2 (fun v h => ret_stops (h ▸ st))
    unfold LCond.eval at g
    rcases hea : a.eval Γ s with y | x | x
    · exact hn y hea
    · rw [hea] at g; cases g
    · rw [hea] at g; cases g

/-- Conditions likewise. -/
theorem C92_cond {N : Names} {n : Nat} (Γ : Fin n → PTy N) (s : Fin n → Int) (c : LCond N n) :
    AnyC Γ s c (c.eval Γ s) ∧ ∀ v r, AnyC Γ s c (.ret v) → AnyC Γ s c r → r = .ret v := by
  refine ⟨ceval_any Γ s c, fun v r h g => ?_⟩
  have h := (any_ceval h).1 v rfl
  by_cases hr : ∃ w, r = .ret w
  · obtain ⟨w, rfl⟩ := hr
    rw [← h, (any_ceval g).1 w rfl]
  · push Not at hr
    exact absurd h ((any_ceval g).2 hr v)

/-! ### programs -/

private theorem aborts_leaves {α : Type} {q : Out α} {r : Out Unit} (h : Aborts q r) : Leaves q r := by
  cases h
  · exact .thrown _
  · exact .fault _

private theorem leaves_aborts {α : Type} {q : Out α} {r : Out Unit} (h : Leaves q r) : Aborts q r := by
  cases h
  · exact .thrown _
  · exact .fault _

private theorem leaves_or {α : Type} (o : Out α) : (∃ v, o = .ret v) ∨ ∃ r, Leaves o r := by
  rcases stops_or (β := Unit) o with h | ⟨r, h⟩
  · exact Or.inl h
  · exact Or.inr ⟨r, aborts_leaves h⟩

private theorem leaves_ne {α : Type} {q : Out α} {r : Out Unit} (h : Leaves q r) : r ≠ .ret () ∧ ∀ v, q ≠ .ret v := by
  cases h <;> exact ⟨nofun, nofun⟩

private theorem opAssign_eq {N : Names} {n : Nat} {Γ : Fin n → PTy N} {s : Fin n → Int} {o : Op2} {i : Fin n} {e : LExpr N n} {U : PTy N}
    {u : Int} (t : e.ty Γ = .ret U) (v : e.eval Γ s = .ret u) : opAssignVal Γ s o i e = opOnto Γ s o i U u := by
  unfold opAssignVal opOnto
  rw [t, v]; rfl

private theorem opAssign_ret {N : Names} {n : Nat} {Γ : Fin n → PTy N} {s : Fin n → Int} {o : Op2} {i : Fin n} {e : LExpr N n} {v : Int}
    (h : opAssignVal Γ s o i e = .ret v) : ∃ U u, e.ty Γ = .ret U ∧ e.eval Γ s = .ret u := by
  unfold opAssignVal at h
  rcases ht : e.ty Γ with T | x | x <;> rw [ht] at h <;> try cases h
  rcases he : e.eval Γ s with u | x | x <;> rw [he] at h <;> try cases h
  exact ⟨T, u, rfl, rfl⟩

/-- from left to right is one of the orders -/
private theorem big_any {N : Names} {n : Nat} {Γ : Fin n → PTy N} {p : LStmt N n} {s : LState n} {r : Out Unit} {s' : LState n}
    (h : Big Γ p s r s') : AnyS Γ p s r s' := by
  induction h with
  | skip s => exact .skip s
  | @assign i e v s h =>
    refine .assign ?_
    rw [← h]
    exact eval_any Γ s.st (.cast (Γ i) e)
  | @assignErr i e r s h => exact .assignErr (eval_any Γ s.st (.cast (Γ i) e)) (leaves_aborts h)
  | @opAssign o i e v s h =>
    obtain ⟨U, u, t, w⟩ := opAssign_ret h
    rw [opAssign_eq t w] at h
    have := eval_any Γ s.st e
    rw [w] at this
    exact .opAssign t this h
  | @opAssignErr o i e r s h =>
    rcases stops_or (β := Unit) (e.ty Γ) with ⟨U, t⟩ | ⟨q, t⟩
    · rcases stops_or (β := Unit) (e.eval Γ s.st) with ⟨u, w⟩ | ⟨q, w⟩
      · rw [opAssign_eq t w] at h
        have := eval_any Γ s.st e
        rw [w] at this
        exact .opAssignOp t this (leaves_aborts h)
      · have : r = q := by
          unfold opAssignVal at h
          rw [t, ret_bind] at h
          generalize e.eval Γ s.st = z at h w
          cases w <;> (cases h; rfl)
        exact this ▸ .opAssignErr (eval_any Γ s.st e) w
    · have : r = q := by
        unfold opAssignVal at h
        generalize e.ty Γ = z at h t
        cases t <;> (cases h; rfl)
      exact this ▸ .opAssignTy t
  | inc _ ih => exact .inc ih
  | dec _ ih => exact .dec ih
  | input h => exact .input h
  | @output T v cs e s t w h =>
    have := eval_any Γ s.st e
    rw [w] at this
    exact .output t this h
  | outputTy h => exact .outputTy (leaves_aborts h)
  | @outputVal r e s T t h => exact .outputErr (eval_any Γ s.st e) (leaves_aborts h)
  | @outputErr T v r e s t w h =>
    have := eval_any Γ s.st e
    rw [w] at this
    exact .outputOp t this (leaves_aborts h)
  | seq _ _ ih1 ih2 => exact .seq ih1 ih2
  | seqErr _ h ih => exact .seqErr ih h
  | @iteT _ s _ _ c _ h _ ih => exact .iteT (h ▸ ceval_any Γ s.st c) ih
  | @iteF _ s _ _ c _ h _ ih => exact .iteF (h ▸ ceval_any Γ s.st c) ih
  | @iteErr _ c _ _ s h => exact .iteErr (ceval_any Γ s.st c) (leaves_aborts h)
  | @whileT _ c s _ _ h _ ih => exact .whileT (h ▸ ceval_any Γ s.st c) ih
  | @whileF c _ s h => exact .whileF (h ▸ ceval_any Γ s.st c)
  | @whileErr _ c _ s h => exact .whileErr (ceval_any Γ s.st c) (leaves_aborts h)
  | noCatch _ h ih => exact .noCatch ih h
  | handle _ _ ih1 ih2 => exact .handle ih1 ih2

private theorem any_noret {N : Names} {n : Nat} {Γ : Fin n → PTy N} {s : Fin n → Int} {e : LExpr N n} {q : Out Int} {r : Out Unit}
    (h : AnyE Γ s e q) (st : Aborts q r) : ∃ r', Leaves (e.eval Γ s) r' := by
  rcases leaves_or (e.eval Γ s) with ⟨v, w⟩ | w
  · exact absurd w ((any_eval h).2 (fun v g => ret_stops (g ▸ st)) v)
  · exact w

private theorem any_cnoret {N : Names} {n : Nat} {Γ : Fin n → PTy N} {s : Fin n → Int} {c : LCond N n} {q : Out Bool} {r : Out Unit}
    (h : AnyC Γ s c q) (st : Aborts q r) : ∃ r', Leaves (c.eval Γ s) r' := by
  rcases leaves_or (c.eval Γ s) with ⟨v, w⟩ | w
  · exact absurd w ((any_ceval h).2 (fun v g => ret_stops (g ▸ st)) v)
  · exact w

/-- If a statement is left in some order, before it has changed anything, then it is left from left to right. -/
private theorem any_left {N : Names} {n : Nat} {Γ : Fin n → PTy N} {p : LStmt N n} {s : LState n} {r r' : Out Unit}
    (hn : NeverFaults Γ p s) (h : AnyS Γ p s r s) (hr : r ≠ .ret ()) (h' : Big Γ p s r' s) (hr' : r' ≠ .ret ()) :
    ∃ r', Big Γ p s r' s ∧ SameKind r r' := by
  refine ⟨r', h', Or.inr ⟨?_, ?_⟩⟩
  · cases r with
    | ret _ => exact absurd rfl hr
    | thrown e => exact ⟨e, rfl⟩
    | fault k => exact absurd rfl (hn _ _ k h)
  · cases r' with
    | ret _ => exact absurd rfl hr'
    | thrown e => exact ⟨e, rfl⟩
    | fault k => exact absurd rfl (hn _ _ k (big_any h'))

private theorem aborts_ne {α : Type} {q : Out α} {r : Out Unit} (h : Aborts q r) : r ≠ .ret () := by cases h <;> exact nofun

private theorem opAssign_left {N : Names} {n : Nat} {Γ : Fin n → PTy N} {s : Fin n → Int} {o : Op2} {i : Fin n} {e : LExpr N n}
    (h : ∀ U u, e.ty Γ = .ret U → e.eval Γ s ≠ .ret u) : ∃ r, Leaves (opAssignVal Γ s o i e) r := by
  rcases leaves_or (opAssignVal Γ s o i e) with ⟨v, w⟩ | w
  · obtain ⟨U, u, h1, h2⟩ := opAssign_ret w
    exact absurd h2 (h U u h1)
  · exact w

/-- the value of an expression in a program that never faults: if left in some order, thrown from left to right -/
private theorem any_big {N : Names} {n : Nat} {Γ : Fin n → PTy N} {p : LStmt N n} {s : LState n} {r : Out Unit} {s' : LState n}
    (h : AnyS Γ p s r s') : NeverFaults Γ p s → ∃ r', Big Γ p s r' s' ∧ SameKind r r' := by
  induction h with
  | skip s => exact fun _ => ⟨_, .skip s, Or.inl rfl⟩
  | assign h => exact fun _ => ⟨_, .assign ((any_eval h).1 _ rfl), Or.inl rfl⟩
  | assignErr h st =>
    intro hn
    obtain ⟨r', w⟩ := any_noret h st
    exact any_left hn (.assignErr h st) (aborts_ne st) (.assignErr w) (leaves_ne w).1
  | opAssign t h w =>
    intro _
    rw [← opAssign_eq t ((any_eval h).1 _ rfl)] at w
    exact ⟨_, .opAssign w, Or.inl rfl⟩
  | opAssignOp t h st =>
    intro _
    rw [← opAssign_eq t ((any_eval h).1 _ rfl)] at st
    exact ⟨_, .opAssignErr (aborts_leaves st), Or.inl rfl⟩
  | opAssignErr h st =>
    intro hn
    obtain ⟨r', w⟩ := opAssign_left (fun U u _ => (any_eval h).2 (fun v g => ret_stops (g ▸ st)) u)
    exact any_left hn (.opAssignErr h st) (aborts_ne st) (.opAssignErr w) (leaves_ne w).1
  | opAssignTy st =>
    intro hn
    obtain ⟨r', w⟩ := opAssign_left (fun U u g => absurd (g ▸ st) ret_stops)
    exact any_left hn (.opAssignTy st) (aborts_ne st) (.opAssignErr w) (leaves_ne w).1
  | inc _ ih =>
    intro hn
    obtain ⟨r', h, k⟩ := ih (fun r s' k g => hn r s' k (.inc g))
    exact ⟨r', .inc h, k⟩
  | dec _ ih =>
    intro hn
    obtain ⟨r', h, k⟩ := ih (fun r s' k g => hn r s' k (.dec g))
    exact ⟨r', .dec h, k⟩
  | input h => exact fun _ => ⟨_, .input h, Or.inl rfl⟩
  | output t h w => exact fun _ => ⟨_, .output t ((any_eval h).1 _ rfl) w, Or.inl rfl⟩
  | outputOp t h st => exact fun _ => ⟨_, .outputErr t ((any_eval h).1 _ rfl) (aborts_leaves st), Or.inl rfl⟩
  | @outputErr e q r s h st =>
    intro hn
    obtain ⟨r', w⟩ := any_noret h st
    rcases leaves_or (e.ty Γ) with ⟨T, t⟩ | ⟨q', t⟩
    · exact any_left hn (.outputErr h st) (aborts_ne st) (.outputVal t w) (leaves_ne w).1
    · exact any_left hn (.outputErr h st) (aborts_ne st) (.outputTy t) (leaves_ne t).1
  | outputTy st => exact fun _ => ⟨_, .outputTy (aborts_leaves st), Or.inl rfl⟩
  | @seq a s s1 b r s' g _ ih1 ih2 =>
    intro hn
    obtain ⟨r1, h1, k1⟩ := ih1 (fun r s' k h hk => hn r s' k (.seqErr h (by rw [hk]; exact nofun)) hk)
    have : r1 = .ret () := by
      rcases k1 with k1 | ⟨⟨x, k1⟩, _⟩
      · exact k1.symm
      · cases k1
    subst this
    obtain ⟨r2, h2, k2⟩ := ih2 (fun r s' k h => hn r s' k (.seq g h))
    exact ⟨r2, .seq h1 h2, k2⟩
  | @seqErr a s r s1 b g hr ih =>
    intro hn
    obtain ⟨r1, h1, k1⟩ := ih (fun r s' k h hk => hn r s' k (.seqErr h (by rw [hk]; exact nofun)) hk)
    refine ⟨r1, .seqErr h1 ?_, k1⟩
    rintro rfl
    rcases k1 with k1 | ⟨_, ⟨x, k1⟩⟩
    · exact hr k1
    · cases k1
  | iteT c _ ih =>
    intro hn
    obtain ⟨r1, h1, k1⟩ := ih (fun r s' k h => hn r s' k (.iteT c h))
    exact ⟨r1, .iteT ((any_ceval c).1 _ rfl) h1, k1⟩
  | iteF c _ ih =>
    intro hn
    obtain ⟨r1, h1, k1⟩ := ih (fun r s' k h => hn r s' k (.iteF c h))
    exact ⟨r1, .iteF ((any_ceval c).1 _ rfl) h1, k1⟩
  | iteErr c st =>
    intro hn
    obtain ⟨r', w⟩ := any_cnoret c st
    exact any_left hn (.iteErr c st) (aborts_ne st) (.iteErr w) (leaves_ne w).1
  | whileT c _ ih =>
    intro hn
    obtain ⟨r1, h1, k1⟩ := ih (fun r s' k h => hn r s' k (.whileT c h))
    exact ⟨r1, .whileT ((any_ceval c).1 _ rfl) h1, k1⟩
  | whileF c => exact fun _ => ⟨_, .whileF ((any_ceval c).1 _ rfl), Or.inl rfl⟩
  | whileErr c st =>
    intro hn
    obtain ⟨r', w⟩ := any_cnoret c st
    exact any_left hn (.whileErr c st) (aborts_ne st) (.whileErr w) (leaves_ne w).1
  | noCatch g hr ih =>
    intro hn
    obtain ⟨r1, h1, k1⟩ := ih (fun r s' k h hk => hn r s' k (.noCatch h (by rw [hk]; exact fun _ => nofun)) hk)
    refine ⟨r1, .noCatch h1 ?_, k1⟩
    rintro e rfl
    rcases k1 with k1 | ⟨⟨x, k1⟩, _⟩
    · exact hr e k1
    · exact hr x k1
  | handle g _ ih1 ih2 =>
    intro hn
    obtain ⟨r1, h1, k1⟩ := ih1 (fun r s' k h hk => hn r s' k (.noCatch h (by rw [hk]; exact fun _ => nofun)) hk)
    have : ∃ x, r1 = .thrown x := by
      rcases k1 with k1 | ⟨_, k1⟩
      · exact ⟨_, k1.symm⟩
      · exact k1
    obtain ⟨x, rfl⟩ := this
    obtain ⟨r2, h2, k2⟩ := ih2 (fun r s' k h => hn r s' k (.handle g h))
    exact ⟨r2, .handle h1 h2, k2⟩

/-- All programs. If no order leads to undefined behaviour, then all orders that come to an end agree on everything that can be
observed, except for the code of an exception that is not caught: variables, output, input left, number of exceptions caught,
and whether the program ends normally. -/
theorem C92_order {N : Names} {n : Nat} (Γ : Fin n → PTy N) (p : LStmt N n) (s : LState n) (hn : NeverFaults Γ p s) (r1 r2 : Out Unit)
    (s1 s2 : LState n) (h1 : AnyS Γ p s r1 s1) (h2 : AnyS Γ p s r2 s2) : s1 = s2 ∧ SameKind r1 r2 := by
  obtain ⟨q1, g1, k1⟩ := any_big h1 hn
  obtain ⟨q2, g2, k2⟩ := any_big h2 hn
  obtain ⟨rfl, rfl⟩ := C60_unique Γ p s q1 q2 s1 s2 g1 g2
  refine ⟨rfl, ?_⟩
  rcases k1 with rfl | ⟨a, b⟩ <;> rcases k2 with rfl | ⟨c, d⟩
  · exact Or.inl rfl
  · exact Or.inr ⟨d, c⟩
  · exact Or.inr ⟨a, b⟩
  · exact Or.inr ⟨a, c⟩

/-- The execution of the model, from left to right, is one of the orders; and if no order leads to undefined behaviour it ends
whenever some order does. -/
theorem C92_model {N : Names} {n : Nat} (Γ : Fin n → PTy N) (p : LStmt N n) (s : LState n) :
    (∀ r s', Ends Γ p s r s' → AnyS Γ p s r s') ∧
    (NeverFaults Γ p s → ∀ r s', AnyS Γ p s r s' → ∃ r', Ends Γ p s r' s' ∧ SameKind r r') := by
  refine ⟨fun r s' h => big_any ((C60_rules Γ p s r s').1 h), fun hn r s' h => ?_⟩
  obtain ⟨r', g, k⟩ := any_big h hn
  exact ⟨r', (C60_rules Γ p s r' s').2 g, k⟩

private theorem any_caught {N : Names} {n : Nat} {Γ : Fin n → PTy N} {p : LStmt N n} {s : LState n} {r : Out Unit} {s' : LState n}
    (h : AnyS Γ p s r s') : s.caught ≤ s'.caught := by
  induction h with
  | seq _ _ h1 h2 => exact Nat.le_trans h1 h2
  | handle _ _ h1 h2 => exact Nat.le_trans h1 (Nat.le_trans (Nat.le_succ _) h2)
  | inc _ ih => exact ih
  | dec _ ih => exact ih
  | seqErr _ _ ih => exact ih
  | iteT _ _ ih => exact ih
  | iteF _ _ ih => exact ih
  | whileT _ _ ih => exact ih
  | noCatch _ _ ih => exact ih
  | _ => exact Nat.le_refl _

private theorem quiet_big {N : Names} {n : Nat} {Γ : Fin n → PTy N} {p : LStmt N n} {s : LState n} {r : Out Unit} {s' : LState n}
    (h : AnyS Γ p s r s') : r = .ret () → s'.caught = s.caught → Big Γ p s (.ret ()) s' := by
  induction h with
  | skip s => exact fun _ _ => .skip s
  | assign h => exact fun _ _ => .assign ((any_eval h).1 _ rfl)
  | assignErr _ st => exact fun h _ => absurd h (aborts_ne st)
  | opAssign t h w =>
    intro _ _
    rw [← opAssign_eq t ((any_eval h).1 _ rfl)] at w
    exact .opAssign w
  | opAssignOp _ _ st => exact fun h _ => absurd h (aborts_ne st)
  | opAssignErr _ st => exact fun h _ => absurd h (aborts_ne st)
  | opAssignTy st => exact fun h _ => absurd h (aborts_ne st)
  | inc _ ih => exact fun h c => .inc (ih h c)
  | dec _ ih => exact fun h c => .dec (ih h c)
  | input h => rintro rfl _; exact .input h
  | output t h w => exact fun _ _ => .output t ((any_eval h).1 _ rfl) w
  | outputOp _ _ st => exact fun h _ => absurd h (aborts_ne st)
  | outputErr _ st => exact fun h _ => absurd h (aborts_ne st)
  | outputTy st => exact fun h _ => absurd h (aborts_ne st)
  | seq h1 h2 ih1 ih2 =>
    intro h c
    have := any_caught h1
    have := any_caught h2
    exact .seq (ih1 rfl (by omega)) (ih2 h (by omega))
  | seqErr _ hr _ => exact fun h _ => absurd h hr
  | iteT c _ ih => exact fun h k => .iteT ((any_ceval c).1 _ rfl) (ih h k)
  | iteF c _ ih => exact fun h k => .iteF ((any_ceval c).1 _ rfl) (ih h k)
  | iteErr _ st => exact fun h _ => absurd h (aborts_ne st)
  | whileT c _ ih => exact fun h k => .whileT ((any_ceval c).1 _ rfl) (ih h k)
  | whileF c => exact fun _ _ => .whileF ((any_ceval c).1 _ rfl)
  | whileErr _ st => exact fun h _ => absurd h (aborts_ne st)
  | noCatch _ _ ih => exact fun h k => .noCatch (ih h k) nofun
  | handle h1 h2 _ _ =>
    intro _ c
    have := any_caught h1
    have := any_caught h2
    simp only at this
    omega

private theorem ne_of_leaves {α : Type} {q : Out α} {v : α} (h : q = .ret v) {r : Out Unit} : ¬ Leaves q r := by
  intro g; rw [h] at g; cases g

private theorem quiet_all {N : Names} {n : Nat} {Γ : Fin n → PTy N} {p : LStmt N n} {s : LState n} {r : Out Unit} {t : LState n}
    (h : AnyS Γ p s r t) : ∀ s', Big Γ p s (.ret ()) s' → s'.caught = s.caught → r = .ret () ∧ t = s' := by
  have ab : ∀ {st : Fin n → Int} {e : LExpr N n} {q : Out Int} {r : Out Unit} {v : Int}, AnyE Γ st e q → Aborts q r → e.eval Γ st ≠ .ret v :=
    fun h st => (any_eval h).2 (fun v g => ret_stops (g ▸ st)) _
  have abc : ∀ {st : Fin n → Int} {c : LCond N n} {q : Out Bool} {r : Out Unit} {v : Bool}, AnyC Γ st c q → Aborts q r → c.eval Γ st ≠ .ret v :=
    fun h st => (any_ceval h).2 (fun v g => ret_stops (g ▸ st)) _
  induction h with
  | skip s => intro s' g _; cases g; exact ⟨rfl, rfl⟩
  | assign h =>
    intro s' g _
    have h := (any_eval h).1 _ rfl
    cases g with
    | assign g => exact ⟨rfl, by rw [show _ = _ from Out.ret.inj (h.symm.trans g)]⟩
    | assignErr g => exact absurd rfl (leaves_ne g).1
  | assignErr h st =>
    intro s' g _
    cases g with
    | assign g => exact absurd g (ab h st)
    | assignErr g => exact absurd rfl (leaves_ne g).1
  | opAssign t h w =>
    intro s' g _
    rw [← opAssign_eq t ((any_eval h).1 _ rfl)] at w
    cases g with
    | opAssign g => exact ⟨rfl, by rw [show _ = _ from Out.ret.inj (w.symm.trans g)]⟩
    | opAssignErr g => exact absurd rfl (leaves_ne g).1
  | opAssignOp t h st =>
    intro s' g _
    rw [← opAssign_eq t ((any_eval h).1 _ rfl)] at st
    cases g with
    | opAssign g => rw [g] at st; cases st
    | opAssignErr g => exact absurd rfl (leaves_ne g).1
  | opAssignErr h st =>
    intro s' g _
    cases g with
    | opAssign g =>
      obtain ⟨U, u, _, k⟩ := opAssign_ret g
      exact absurd k (ab h st)
    | opAssignErr g => exact absurd rfl (leaves_ne g).1
  | opAssignTy st =>
    intro s' g _
    cases g with
    | opAssign g =>
      obtain ⟨U, u, k, _⟩ := opAssign_ret g
      rw [k] at st; cases st
    | opAssignErr g => exact absurd rfl (leaves_ne g).1
  | inc _ ih => intro s' g k; cases g with | inc g => exact ih s' g k
  | dec _ ih => intro s' g k; cases g with | dec g => exact ih s' g k
  | input h =>
    intro s' g _
    cases g with
    | input g =>
      rw [h] at g
      cases g
      exact ⟨rfl, rfl⟩
  | output t h w =>
    intro s' g _
    have h := (any_eval h).1 _ rfl
    cases g with
    | output t' h' w' =>
      rw [t] at t'; cases t'
      rw [h] at h'; cases h'
      rw [w] at w'; cases w'
      exact ⟨rfl, rfl⟩
    | outputTy g => exact absurd rfl (leaves_ne g).1
    | outputVal _ g => exact absurd rfl (leaves_ne g).1
    | outputErr _ _ g => exact absurd rfl (leaves_ne g).1
  | outputOp t h st =>
    intro s' g _
    have h := (any_eval h).1 _ rfl
    cases g with
    | output t' h' w' =>
      rw [t] at t'; cases t'
      rw [h] at h'; cases h'
      rw [w'] at st; cases st
    | outputTy g => exact absurd rfl (leaves_ne g).1
    | outputVal _ g => exact absurd rfl (leaves_ne g).1
    | outputErr _ _ g => exact absurd rfl (leaves_ne g).1
  | outputErr h st =>
    intro s' g _
    cases g with
    | output t' h' w' => exact absurd h' (ab h st)
    | outputTy g => exact absurd rfl (leaves_ne g).1
    | outputVal _ g => exact absurd rfl (leaves_ne g).1
    | outputErr _ _ g => exact absurd rfl (leaves_ne g).1
  | outputTy st =>
    intro s' g _
    cases g with
    | output t' h' w' => rw [t'] at st; cases st
    | outputTy g => exact absurd rfl (leaves_ne g).1
    | outputVal _ g => exact absurd rfl (leaves_ne g).1
    | outputErr _ _ g => exact absurd rfl (leaves_ne g).1
  | seq _ _ ih1 ih2 =>
    intro s' g k
    cases g with
    | seq g1 g2 =>
      have c1 := any_caught (big_any g1)
      have c2 := any_caught (big_any g2)
      obtain ⟨_, e⟩ := ih1 _ g1 (by omega)
      subst e
      exact ih2 _ g2 (by omega)
    | seqErr _ hr => exact absurd rfl hr
  | seqErr _ hr ih =>
    intro s' g k
    cases g with
    | seq g1 g2 =>
      have c1 := any_caught (big_any g1)
      have c2 := any_caught (big_any g2)
      exact absurd (ih _ g1 (by omega)).1 hr
    | seqErr _ hr => exact absurd rfl hr
  | iteT c _ ih =>
    intro s' g k
    have c := (any_ceval c).1 _ rfl
    cases g with
    | iteT _ g => exact ih _ g k
    | iteF c' _ => rw [c] at c'; cases c'
    | iteErr g => exact absurd rfl (leaves_ne g).1
  | iteF c _ ih =>
    intro s' g k
    have c := (any_ceval c).1 _ rfl
    cases g with
    | iteT c' _ => rw [c] at c'; cases c'
    | iteF _ g => exact ih _ g k
    | iteErr g => exact absurd rfl (leaves_ne g).1
  | iteErr h st =>
    intro s' g k
    cases g with
    | iteT c' _ => exact absurd c' (abc h st)
    | iteF c' _ => exact absurd c' (abc h st)
    | iteErr g => exact absurd rfl (leaves_ne g).1
  | whileT c _ ih =>
    intro s' g k
    have c := (any_ceval c).1 _ rfl
    cases g with
    | whileT _ g => exact ih _ g k
    | whileF c' => rw [c] at c'; cases c'
    | whileErr g => exact absurd rfl (leaves_ne g).1
  | whileF c =>
    intro s' g k
    have c := (any_ceval c).1 _ rfl
    cases g with
    | whileT c' _ => rw [c] at c'; cases c'
    | whileF _ => exact ⟨rfl, rfl⟩
    | whileErr g => exact absurd rfl (leaves_ne g).1
  | whileErr h st =>
    intro s' g k
    cases g with
    | whileT c' _ => exact absurd c' (abc h st)
    | whileF c' => exact absurd c' (abc h st)
    | whileErr g => exact absurd rfl (leaves_ne g).1
  | noCatch _ _ ih =>
    intro s' g k
    cases g with
    | noCatch g _ => exact ih _ g k
    | handle g1 g2 =>
      have c1 := any_caught (big_any g1)
      have c2 := any_caught (big_any g2)
      simp only at c2
      omega
  | handle _ _ ih1 _ =>
    intro s' g k
    cases g with
    | noCatch g _ => exact absurd (ih1 _ g k).1 nofun
    | handle g1 g2 =>
      have c1 := any_caught (big_any g1)
      have c2 := any_caught (big_any g2)
      simp only at c2
      omega

/-- All programs, without any condition: if in one order the program ends without an exception, thrown or caught on the way, then it
ends in the same way and in the same state in every order that comes to an end; and so does the execution of the model. -/
theorem C92_quiet {N : Names} {n : Nat} (Γ : Fin n → PTy N) (p : LStmt N n) (s s' : LState n) (h : AnyS Γ p s (.ret ()) s')
    (hc : s'.caught = s.caught) : Ends Γ p s (.ret ()) s' ∧ ∀ r t, AnyS Γ p s r t → r = .ret () ∧ t = s' := by
  have g := quiet_big h rfl hc
  exact ⟨(C60_rules Γ p s _ s').2 g, fun r t k => quiet_all k s' g hc⟩

/-! ### covered programs -/

private theorem any_covered {N : Names} (hN : Careful N) {n : Nat} {Γ : Fin n → PTy N} (hΓ : GoodVars Γ) {s : Fin n → Int} (hs : Ranged Γ s)
    {e : LExpr N n} {r : Out Int} (h : AnyE Γ s e r) : ECovered Γ e → NoUb r := by
  have ev : ∀ e' : LExpr N n, ECovered Γ e' → NoUb (e'.eval Γ s) := fun e' c => by
    rcases C58_exact_partial hN Γ hΓ s hs e' c with ⟨_, v, w, _⟩ | ⟨x, w⟩ | w <;> rw [w] <;> exact ⟨nofun, nofun⟩
  have ab : ∀ {α β : Type} {q : Out α} {r : Out β}, Aborts q r → NoUb q → NoUb r := fun st hq => by
    cases st with
    | thrown x => exact ⟨nofun, nofun⟩
    | fault k => exact ⟨fun g => hq.1 (by cases g; rfl), fun g => hq.2 (by cases g; rfl)⟩
  have ty : ∀ e' : LExpr N n, NoUb (e'.ty Γ) := fun e' => by
    rcases ty_st Γ e' with ⟨T, w⟩ | w <;> rw [w] <;> exact ⟨nofun, nofun⟩
  induction h with
  | var i => exact fun _ => ⟨nofun, nofun⟩
  | const B k => exact fun _ => ⟨nofun, nofun⟩
  | lit L => exact fun _ => ⟨nofun, nofun⟩
  | @bin a x b y o T U t1 t2 h1 h2 _ _ =>
    intro c
    have e : (LExpr.bin o a b).eval Γ s = pBinVal o T U x y := by
      unfold LExpr.eval
      rw [t1, t2, (any_eval h1).1 _ rfl, (any_eval h2).1 _ rfl]; rfl
    rw [← e]
    exact ev _ c
  | binL _ st ih => exact fun c => ab st (ih c.1)
  | binR _ st ih => exact fun c => ab st (ih c.2.1)
  | binTyL st => exact fun _ => ab st (ty _)
  | binTyR st => exact fun _ => ab st (ty _)
  | @neg a x T t1 h1 _ =>
    intro c
    have e : (LExpr.neg a).eval Γ s = negValOf T x := by
      unfold LExpr.eval
      rw [t1, (any_eval h1).1 _ rfl]; rfl
    rw [← e]
    exact ev _ c
  | negErr _ st ih => exact fun c => ab st (ih c.1)
  | negTy st => exact fun _ => ab st (ty _)
  | pos _ ih => exact fun c => ih c
  | @cast a x S T t1 h1 _ =>
    intro c
    have e : (LExpr.cast S a).eval Γ s = convTo S T x := by
      unfold LExpr.eval
      rw [t1, (any_eval h1).1 _ rfl]; rfl
    rw [← e]
    exact ev _ c
  | castErr _ st ih => exact fun c => ab st (ih c.1)
  | castTy st => exact fun _ => ab st (ty _)

private theorem aborts_noUb {α β : Type} {q : Out α} {r : Out β} (st : Aborts q r) (hq : NoUb q) : NoUb r := by
  cases st with
  | thrown x => exact ⟨nofun, nofun⟩
  | fault k => exact ⟨fun g => hq.1 (by cases g; rfl), fun g => hq.2 (by cases g; rfl)⟩

private theorem ty_noUb {N : Names} {n : Nat} (Γ : Fin n → PTy N) (e : LExpr N n) : NoUb (e.ty Γ) := by
  rcases ty_st Γ e with ⟨T, w⟩ | w <;> rw [w] <;> exact ⟨nofun, nofun⟩

private theorem any_ccovered {N : Names} (hN : Careful N) {n : Nat} {Γ : Fin n → PTy N} (hΓ : GoodVars Γ) {s : Fin n → Int} (hs : Ranged Γ s)
    {c : LCond N n} {r : Out Bool} (h : AnyC Γ s c r) : CCovered Γ c → NoUb r := by
  have ev : ∀ e' : LCond N n, CCovered Γ e' → NoUb (e'.eval Γ s) := fun e' c => by
    rcases C58_cond_partial hN Γ hΓ s hs e' c with ⟨v, w, _⟩ | ⟨x, w⟩ | w <;> rw [w] <;> exact ⟨nofun, nofun⟩
  induction h with
  | @cmp a x b y o T U t1 t2 h1 h2 =>
    intro c
    have e : (LCond.cmp o a b).eval Γ s = pCompare o T U x y := by
      unfold LCond.eval
      rw [t1, t2, (any_eval h1).1 _ rfl, (any_eval h2).1 _ rfl]; rfl
    rw [← e]
    exact ev _ c
  | cmpL h st => exact fun c => aborts_noUb st (any_covered hN hΓ hs h c.1)
  | cmpR h st => exact fun c => aborts_noUb st (any_covered hN hΓ hs h c.2.1)
  | cmpTyL st => exact fun _ => aborts_noUb st (ty_noUb Γ _)
  | cmpTyR st => exact fun _ => aborts_noUb st (ty_noUb Γ _)
  | @truth a x T t1 h1 =>
    intro c
    have e : (LCond.truth a).eval Γ s = toBool T.ep T.opd x := by
      unfold LCond.eval
      rw [t1, (any_eval h1).1 _ rfl]; rfl
    rw [← e]
    exact ev _ c
  | truthErr h st => exact fun c => aborts_noUb st (any_covered hN hΓ hs h c)
  | truthTy st => exact fun _ => aborts_noUb st (ty_noUb Γ _)
  | not _ _ => exact fun _ => ⟨nofun, nofun⟩
  | notErr _ st ih => exact fun c => aborts_noUb st (ih c)
  | andT _ _ _ ih => exact fun c => ih c.2
  | andF _ _ => exact fun _ => ⟨nofun, nofun⟩
  | andErr _ st ih => exact fun c => aborts_noUb st (ih c.1)
  | orF _ _ _ ih => exact fun c => ih c.2
  | orT _ _ => exact fun _ => ⟨nofun, nofun⟩
  | orErr _ st ih => exact fun c => aborts_noUb st (ih c.1)

/-- The covered programs of C59: in every order, no undefined behaviour, and all variables within their ranges. -/
theorem C92_safe {N : Names} (hN : Careful N) {n : Nat} (Γ : Fin n → PTy N) (hΓ : GoodVars Γ) (p : LStmt N n) (hp : SCovered Γ p)
    (s s' : LState n) (r : Out Unit) (hs : Ranged Γ s.st) (h : AnyS Γ p s r s') : NoUb r ∧ Ranged Γ s'.st := by
  -- a statement that does what it does from left to right
  have step : ∀ {p : LStmt N n} {s s' : LState n} {r : Out Unit}, SCovered Γ p → Ranged Γ s.st → Big Γ p s r s' →
      NoUb r ∧ Ranged Γ s'.st := fun hp hs h => by
    obtain ⟨k, g⟩ := (C60_rules Γ _ _ _ _).2 h
    exact C59_safe_partial hN Γ hΓ _ hp k _ _ _ hs (g k (Nat.le_refl k))
  induction h with
  | skip s => exact ⟨⟨nofun, nofun⟩, hs⟩
  | assign h => exact step hp hs (.assign ((any_eval h).1 _ rfl))
  | assignErr h st => exact ⟨aborts_noUb st (any_covered hN hΓ hs h hp), hs⟩
  | opAssign t h w =>
    rw [← opAssign_eq t ((any_eval h).1 _ rfl)] at w
    exact step hp hs (.opAssign w)
  | opAssignOp t h st =>
    rw [← opAssign_eq t ((any_eval h).1 _ rfl)] at st
    exact step hp hs (.opAssignErr (aborts_leaves st))
  | opAssignErr h st => exact ⟨aborts_noUb st (any_covered hN hΓ hs h hp.1), hs⟩
  | opAssignTy st => exact ⟨aborts_noUb st (ty_noUb Γ _), hs⟩
  | inc h ih =>
    refine ih ⟨⟨Arch.intMax, ITy.in_one tInt⟩, fun U hU => ⟨Or.inl hp, fun q e _ _ => ?_⟩⟩ hs
    exact trivial
  | dec h ih =>
    refine ih ⟨⟨Arch.intMax, ITy.in_one tInt⟩, fun U hU => ⟨Or.inl hp, fun q e _ _ => ?_⟩⟩ hs
    exact trivial
  | input h => exact step hp hs (.input h)
  | output t h w => exact ⟨⟨nofun, nofun⟩, hs⟩
  | outputOp t h st => exact step hp hs (.outputErr t ((any_eval h).1 _ rfl) (aborts_leaves st))
  | outputErr h st => exact ⟨aborts_noUb st (any_covered hN hΓ hs h hp.1), hs⟩
  | outputTy st => exact ⟨aborts_noUb st (ty_noUb Γ _), hs⟩
  | seq _ _ ih1 ih2 => exact ih2 hp.2 (ih1 hp.1 hs).2
  | seqErr _ _ ih => exact ih hp.1 hs
  | iteT _ _ ih => exact ih hp.2.1 hs
  | iteF _ _ ih => exact ih hp.2.2 hs
  | iteErr h st => exact ⟨aborts_noUb st (any_ccovered hN hΓ hs h hp.1), hs⟩
  | whileT _ _ ih => exact ih ⟨hp.2, hp⟩ hs
  | whileF _ => exact ⟨⟨nofun, nofun⟩, hs⟩
  | whileErr h st => exact ⟨aborts_noUb st (any_ccovered hN hΓ hs h hp.1), hs⟩
  | noCatch _ _ ih => exact ih hp.1 hs
  | handle _ _ ih1 ih2 => exact ih2 hp.2 (ih1 hp.1 hs).2

/-- and an execution in any order that ends without an exception computes what the program computes over the integers. -/
theorem C92_refines {N : Names} (hN : Careful N) {n : Nat} (Γ : Fin n → PTy N) (hΓ : GoodVars Γ) (p : LStmt N n) (hp : SCovered Γ p)
    (s s' : LState n) (hs : Ranged Γ s.st) (h : AnyS Γ p s (.ret ()) s') (hc : s'.caught = s.caught) :
    ∃ f, iexec f p (abst s) = some (some (abst s')) := by
  obtain ⟨k, g⟩ := (C92_quiet Γ p s s' h hc).1
  exact ⟨k, C60_refines_partial hN Γ hΓ p hp k s s' hs (g k (Nat.le_refl k)) hc⟩

private theorem aborts_ill {α β : Type} {q : Out α} {r : Out β} (st : Aborts q r) (hq : q ≠ .fault .illFormed) : r ≠ .fault .illFormed := by
  cases st with
  | thrown x => exact nofun
  | fault k => exact fun g => hq (by cases g; rfl)

private theorem any_accepted {N : Names} (hN : Careful N) {n : Nat} {Γ : Fin n → PTy N} (hΓ : GoodVars Γ) {s : Fin n → Int} (hs : Ranged Γ s)
    {e : LExpr N n} {r : Out Int} (h : AnyE Γ s e r) : ECovered Γ e → EAccepted Γ e → r ≠ .fault .illFormed := by
  have ev := C67_expr_partial hN Γ hΓ s hs
  induction h with
  | var i => exact fun _ _ => nofun
  | const B k => exact fun _ _ => nofun
  | lit L => exact fun _ _ => nofun
  | @bin a x b y o T U t1 t2 h1 h2 _ _ =>
    intro c k
    have e : (LExpr.bin o a b).eval Γ s = pBinVal o T U x y := by
      unfold LExpr.eval
      rw [t1, t2, (any_eval h1).1 _ rfl, (any_eval h2).1 _ rfl]; rfl
    rw [← e]
    exact ev _ c k
  | binL _ st ih => exact fun c k => aborts_ill st (ih c.1 k.1)
  | binR _ st ih => exact fun c k => aborts_ill st (ih c.2.1 k.2.1)
  | binTyL st =>
    intro _ ⟨_, _, A, B, t1, t2, _⟩
    rw [t1] at st; cases st
  | binTyR st =>
    intro _ ⟨_, _, A, B, t1, t2, _⟩
    rw [t2] at st; cases st
  | @neg a x T t1 h1 _ =>
    intro c k
    have e : (LExpr.neg a).eval Γ s = negValOf T x := by
      unfold LExpr.eval
      rw [t1, (any_eval h1).1 _ rfl]; rfl
    rw [← e]
    exact ev _ c k
  | negErr _ st ih => exact fun c k => aborts_ill st (ih c.1 k.1)
  | negTy st =>
    intro _ ⟨_, A, t1, _⟩
    rw [t1] at st; cases st
  | pos _ ih => exact fun c k => ih c k
  | @cast a x S T t1 h1 _ =>
    intro c k
    have e : (LExpr.cast S a).eval Γ s = convTo S T x := by
      unfold LExpr.eval
      rw [t1, (any_eval h1).1 _ rfl]; rfl
    rw [← e]
    exact ev _ c k
  | castErr _ st ih => exact fun c k => aborts_ill st (ih c.1 k.1)
  | castTy st =>
    intro _ ⟨_, A, t1, _⟩
    rw [t1] at st; cases st

private theorem any_caccepted {N : Names} (hN : Careful N) {n : Nat} {Γ : Fin n → PTy N} (hΓ : GoodVars Γ) {s : Fin n → Int} (hs : Ranged Γ s)
    {c : LCond N n} {r : Out Bool} (h : AnyC Γ s c r) : CCovered Γ c → CAccepted Γ c → r ≠ .fault .illFormed := by
  have ev := C67_cond_partial hN Γ hΓ s hs
  induction h with
  | @cmp a x b y o T U t1 t2 h1 h2 =>
    intro c k
    have e : (LCond.cmp o a b).eval Γ s = pCompare o T U x y := by
      unfold LCond.eval
      rw [t1, t2, (any_eval h1).1 _ rfl, (any_eval h2).1 _ rfl]; rfl
    rw [← e]
    exact ev _ c k
  | cmpL h st => exact fun c k => aborts_ill st (any_accepted hN hΓ hs h c.1 k.1)
  | cmpR h st => exact fun c k => aborts_ill st (any_accepted hN hΓ hs h c.2.1 k.2.1)
  | cmpTyL st =>
    intro _ ⟨_, _, A, B, t1, t2, _⟩
    rw [t1] at st; cases st
  | cmpTyR st =>
    intro _ ⟨_, _, A, B, t1, t2, _⟩
    rw [t2] at st; cases st
  | @truth a x T t1 h1 =>
    intro c k
    have e : (LCond.truth a).eval Γ s = toBool T.ep T.opd x := by
      unfold LCond.eval
      rw [t1, (any_eval h1).1 _ rfl]; rfl
    rw [← e]
    exact ev _ c k
  | truthErr h st => exact fun c k => aborts_ill st (any_accepted hN hΓ hs h c k.1)
  | truthTy st =>
    intro _ ⟨_, A, t1, _⟩
    rw [t1] at st; cases st
  | not _ _ => exact fun _ _ => nofun
  | notErr _ st ih => exact fun c k => aborts_ill st (ih c k)
  | andT _ _ _ ih => exact fun c k => ih c.2 k.2
  | andF _ _ => exact fun _ _ => nofun
  | andErr _ st ih => exact fun c k => aborts_ill st (ih c.1 k.1)
  | orF _ _ _ ih => exact fun c k => ih c.2 k.2
  | orT _ _ => exact fun _ _ => nofun
  | orErr _ st ih => exact fun c k => aborts_ill st (ih c.1 k.1)

private theorem any_saccepted {N : Names} (hN : Careful N) {n : Nat} {Γ : Fin n → PTy N} (hΓ : GoodVars Γ) {p : LStmt N n}
    {s s' : LState n} {r : Out Unit} (h : AnyS Γ p s r s') : SCovered Γ p → SAccepted Γ p → Ranged Γ s.st → r ≠ .fault .illFormed := by
  have step : ∀ {p : LStmt N n} {s s' : LState n} {r : Out Unit}, SCovered Γ p → SAccepted Γ p → Ranged Γ s.st → Big Γ p s r s' →
      r ≠ .fault .illFormed := fun hp ha hs h e => by
    obtain ⟨k, g⟩ := (C60_rules Γ _ _ _ _).2 h
    exact C67_program_partial hN Γ hΓ k _ _ _ hp ha hs (e ▸ g k (Nat.le_refl k))
  have inc : ∀ {o : Arith} {i : Fin n}, (o = .add ∨ o = .sub) → (Γ i).isSafe = true → SCovered Γ (.opAssign (.ar o) i (.const tInt 1)) :=
    fun ho hp => ⟨⟨Arch.intMax, ITy.in_one tInt⟩, fun U hU => ⟨Or.inl hp, fun q e _ _ => by rcases ho with rfl | rfl <;> exact trivial⟩⟩
  induction h with
  | skip s => exact fun _ _ _ => nofun
  | assign h => exact fun _ _ _ => nofun
  | assignErr h st => exact fun c k hs => aborts_ill st (any_accepted hN hΓ hs h c k)
  | opAssign t h w => exact fun _ _ _ => nofun
  | opAssignOp t h st =>
    intro c k hs
    rw [← opAssign_eq t ((any_eval h).1 _ rfl)] at st
    exact step c k hs (.opAssignErr (aborts_leaves st))
  | opAssignErr h st => exact fun c k hs => aborts_ill st (any_accepted hN hΓ hs h c.1 k.1)
  | opAssignTy st =>
    intro _ ⟨_, A, t1, _⟩
    rw [t1] at st; cases st
  | inc _ ih => exact fun c k hs => ih (inc (Or.inl rfl) c) ⟨trivial, _, rfl, k⟩ hs
  | dec _ ih => exact fun c k hs => ih (inc (Or.inr rfl) c) ⟨trivial, _, rfl, k⟩ hs
  | input h => exact fun c k hs => step c k hs (.input h)
  | output t h w => exact fun _ _ _ => nofun
  | outputOp t h st => exact fun c k hs => step c k hs (.outputErr t ((any_eval h).1 _ rfl) (aborts_leaves st))
  | outputErr h st => exact fun c k hs => aborts_ill st (any_accepted hN hΓ hs h c.1 k.1)
  | outputTy st =>
    intro _ ⟨_, A, t1⟩
    rw [t1] at st; cases st
  | seq h1 _ _ ih2 => exact fun c k hs => ih2 c.2 k.2 (C92_safe hN Γ hΓ _ c.1 _ _ _ hs h1).2
  | seqErr _ _ ih => exact fun c k hs => ih c.1 k.1 hs
  | iteT _ _ ih => exact fun c k hs => ih c.2.1 k.2.1 hs
  | iteF _ _ ih => exact fun c k hs => ih c.2.2 k.2.2 hs
  | iteErr h st => exact fun c k hs => aborts_ill st (any_caccepted hN hΓ hs h c.1 k.1)
  | whileT _ _ ih => exact fun c k hs => ih ⟨c.2, c⟩ ⟨k.2, k⟩ hs
  | whileF _ => exact fun _ _ _ => nofun
  | whileErr h st => exact fun c k hs => aborts_ill st (any_caccepted hN hΓ hs h c.1 k.1)
  | noCatch _ _ ih => exact fun c k hs => ih c.1 k.1 hs
  | handle h1 _ _ ih2 => exact fun c k hs => ih2 c.2 k.2 (C92_safe hN Γ hΓ _ c.1 _ _ _ hs h1).2

/-- Covered programs that compile (C67) meet no fault in any order, so that the order cannot be observed (C92_order): two executions in
any orders end in the same state, both normally or both with an exception. -/
theorem C92_covered {N : Names} (hN : Careful N) {n : Nat} (Γ : Fin n → PTy N) (hΓ : GoodVars Γ) (p : LStmt N n) (hp : SCovered Γ p)
    (ha : SAccepted Γ p) (s : LState n) (hs : Ranged Γ s.st) :
    NeverFaults Γ p s ∧ ∀ r1 r2 s1 s2, AnyS Γ p s r1 s1 → AnyS Γ p s r2 s2 → s1 = s2 ∧ SameKind r1 r2 := by
  have hn : NeverFaults Γ p s := by
    rintro r s' k h rfl
    have h1 := (C92_safe hN Γ hΓ p hp s s' _ hs h).1
    have h2 := any_saccepted hN hΓ h hp ha hs
    cases k
    · exact h1.1 rfl
    · exact h1.2 rfl
    · exact h2 rfl
  exact ⟨hn, fun r1 r2 s1 s2 => C92_order Γ p s hn r1 r2 s1 s2⟩

end

/-! ### examples -/

namespace OrderEx
attribute [local instance] lp64

def names : Names := ⟨Unit, Unit, inferInstance, inferInstance, fun _ => .native, fun _ => strictException⟩
/-- two variables of type `safe<int>`, one of type `int` -/
def Γ : Fin 3 → PTy names
  | 0 => ⟨Opd.ofSafe i32, some (), some ()⟩
  | 1 => ⟨Opd.ofSafe i32, some (), some ()⟩
  | 2 => PTy.builtin i32
def st (x y z : Int) : Fin 3 → Int
  | 0 => x
  | 1 => y
  | 2 => z

/-- `(x + 1) + (x / y)` -/
def sum : LExpr names 3 := .bin (.ar .add) (.bin (.ar .add) (.var 0) (.const i32 1)) (.bin (.ar .div) (.var 0) (.var 1))

theorem left (x y z : Int) : AnyE Γ (st x y z) (.bin (.ar .add) (.var 0) (.const i32 1))
    (pBinVal (.ar .add) (Γ 0) (PTy.builtin i32) x 1) := .bin rfl rfl (.var 0) (.const i32 1)
theorem right (x y z : Int) : AnyE Γ (st x y z) (.bin (.ar .div) (.var 0) (.var 1)) (pBinVal (.ar .div) (Γ 0) (Γ 1) x y) :=
  .bin rfl rfl (.var 0) (.var 1)

end OrderEx

section
attribute [local instance] lp64
open OrderEx

-- with `x` the largest value and `y` zero the code of the exception depends on the order
example : AnyE Γ (st 2147483647 0 0) sum (.thrown .positive_overflow_error) :=
  .binL (left 2147483647 0 0) (by
    rw [show pBinVal (.ar .add) (Γ 0) (PTy.builtin i32) 2147483647 1 = .thrown .positive_overflow_error by decide +kernel]
    exact .thrown _)
example : AnyE Γ (st 2147483647 0 0) sum (.thrown .domain_error) :=
  .binR (right 2147483647 0 0) (by
    rw [show pBinVal (.ar .div) (Γ 0) (Γ 1) 2147483647 0 = .thrown .domain_error by decide +kernel]
    exact .thrown _)
example : sum.eval Γ (st 2147483647 0 0) = .thrown .positive_overflow_error := by decide +kernel
-- a value is the same in all orders
example (r : Out Int) (h : AnyE Γ (st 6 2 0) sum r) : r = .ret 10 := by
  have h' := (C92_expr Γ (st 6 2 0) sum).1
  rw [show sum.eval Γ (st 6 2 0) = .ret 10 by decide +kernel] at h'
  exact (C92_expr Γ (st 6 2 0) sum).2 10 r h' h

/-- The condition of C92_order is needed: in `(x + 1) + (y + z / z)`, where `z` is a built-in zero and `x` the largest value, the exception
comes first from left to right, the undefined division from right to left. -/
theorem C92_condition_needed : ∃ (p : LStmt names 3) (s : LState 3),
    (∃ e, AnyS Γ p s (.thrown e) s) ∧ AnyS Γ p s (.fault .ub) s := by
  refine ⟨.output (.bin (.ar .add) (.bin (.ar .add) (.var 0) (.const i32 1)) (.bin (.ar .add) (.var 1) (.bin (.ar .div) (.var 2) (.var 2)))),
    ⟨st 2147483647 0 0, ⟨[], false, false⟩, [], 0⟩, ⟨.positive_overflow_error, ?_⟩, ?_⟩
  · refine .outputErr (.binL (left 2147483647 0 0) ?_) (.thrown _)
    rw [show pBinVal (.ar .add) (Γ 0) (PTy.builtin i32) 2147483647 1 = .thrown .positive_overflow_error by decide +kernel]
    exact .thrown _
  · have h : AnyE Γ (st 2147483647 0 0) (.bin (.ar .div) (.var 2) (.var 2)) (pBinVal (.ar .div) (Γ 2) (Γ 2) 0 0) :=
      .bin rfl rfl (.var 2) (.var 2)
    rw [show pBinVal (.ar .div) (Γ 2) (Γ 2) 0 0 = .fault .ub by decide +kernel] at h
    exact .outputErr (.binR (.binR h (.fault _)) (.fault _)) (.fault _)

-- Euclid's algorithm meets no fault in any order and, as it ends without an exception in one order (C67_gcd), computes the greatest
-- common divisor in every order
example (s : LState 3) (hs : Ranged Euclid.Γ s.st) : NeverFaults Euclid.Γ Euclid.gcd s :=
  (C92_covered Euclid.careful Euclid.Γ Euclid.good Euclid.gcd Euclid.covered Euclid.accepted s hs).1
example (s t : LState 3) (hs : Ranged Euclid.Γ s.st) (hi : StreamOk s.inp) (r : Out Unit) (h : AnyS Euclid.Γ Euclid.gcd s r t) :
    r = .ret () ∧ t.st 0 = Int.gcd (s.st 0) (s.st 1) := by
  obtain ⟨f, s', g, e, c⟩ := C67_gcd s hs hi
  have k := (C92_model Euclid.Γ Euclid.gcd s).1 (.ret ()) s' ⟨f, fun f' hf => C59_bound Euclid.Γ f _ _ _ g f' hf⟩
  obtain ⟨rfl, rfl⟩ := (C92_quiet Euclid.Γ Euclid.gcd s s' k c).2 r t h
  exact ⟨rfl, e⟩

end
end Verif.Props
