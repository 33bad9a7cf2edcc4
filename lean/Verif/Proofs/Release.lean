import Verif.Proofs.Policy
import Verif.ReleaseSpec

/-! Helper lemmas for C97: a policy that traps, replaced by another one. -/

namespace Verif.Release
open Spec

/-- the same outcome, or rejected by the compiler (on the left) -/
def Upto {α : Type} (o o' : Out α) : Prop := o = o' ∨ o = .fault .illFormed

theorem Upto.refl {α : Type} (o : Out α) : Upto o o := Or.inl rfl

theorem Upto.bind {α β : Type} {o o' : Out α} {k k' : α → Out β} (h : Upto o o') (hk : ∀ x, Upto (k x) (k' x)) :
    Upto (o >>= k) (o' >>= k') := by
  rcases h with rfl | rfl
  · cases o with
    | ret x => exact hk x
    | thrown e => exact Or.inl rfl
    | fault f => exact Or.inl rfl
  · exact Or.inr rfl

theorem Upto.ite {α : Type} {c : Prop} [Decidable c] {a b a' b' : Out α} (h : Upto a a') (h' : Upto b b') :
    Upto (if c then a else b) (if c then a' else b') := by
  split
  · exact h
  · exact h'

section
variable {q p : EP} (h : TrapsFor q p)
include h

theorem traps_of (es : List Err) (g : p.traps es = true) : q.traps es = true := by
  unfold EP.traps at g ⊢
  rw [List.any_eq_true] at g ⊢
  obtain ⟨e, he, g⟩ := g
  refine ⟨e, he, ?_⟩
  rw [Verif.trap_iff] at g ⊢
  rcases h e with h | h
  · rw [h, g]
  · exact h

/-- code that is rejected if the policy traps -/
theorem Upto.traps {α : Type} (es : List Err) {b b' : Out α} (h' : Upto b b') :
    Upto (if q.traps es then .fault .illFormed else b) (if p.traps es then .fault .illFormed else b') := by
  by_cases g : q.traps es = true
  · rw [if_pos g]; exact Or.inr rfl
  · rw [if_neg g, if_neg fun g' => g (traps_of h es g')]; exact h'

theorem rel_handler (e : Err) : Upto (dispatchAndReturn q e) (dispatchAndReturn p e) := by
  unfold dispatchAndReturn
  rcases h e with h | h
  · rw [h]; exact .refl _
  · rw [h]; exact Or.inr rfl

/-- closes goals `Upto (f (dispatchAndReturn q)) (f (dispatchAndReturn p))` for code that calls the handler in final position -/
macro "relaxed" h:term : tactic => `(tactic|
  repeat first
    | exact Upto.refl _
    | exact rel_handler $h _
    | refine Upto.ite ?_ ?_
    | (refine Upto.bind (Upto.refl _) fun _ => ?_))

variable [Arch]

theorem rel_cast (R : ITy) (mn mx : Int) (T : ITy) (t : Int) :
    Upto (cast R mn mx T (dispatchAndReturn q) t) (cast R mn mx T (dispatchAndReturn p) t) := by
  unfold cast
  cases R.signed <;> cases T.signed <;> dsimp only <;> relaxed h

theorem rel_add (R : ITy) (t u : Int) : Upto (add R (dispatchAndReturn q) t u) (add R (dispatchAndReturn p) t u) := by
  unfold add; dsimp only; relaxed h

theorem rel_sub (R : ITy) (t u : Int) : Upto (subtract R (dispatchAndReturn q) t u) (subtract R (dispatchAndReturn p) t u) := by
  unfold subtract; dsimp only; relaxed h

theorem rel_mul (R : ITy) (t u : Int) : Upto (multiply R (dispatchAndReturn q) t u) (multiply R (dispatchAndReturn p) t u) := by
  unfold multiply multiplyUFast multiplyUSlow multiplySFast multiplySSlow
  dsimp only
  cases R.signed <;> cases decide (2 ^ R.lg > 2 ^ Arch.maxLg / 2) <;> dsimp only <;> relaxed h

theorem rel_div (R : ITy) (t u : Int) : Upto (divide R (dispatchAndReturn q) t u) (divide R (dispatchAndReturn p) t u) := by
  unfold divide; relaxed h

theorem rel_mod (R : ITy) (t u : Int) : Upto (modulus R (dispatchAndReturn q) t u) (modulus R (dispatchAndReturn p) t u) := by
  unfold modulus; relaxed h

theorem rel_shl (R : ITy) (t u : Int) : Upto (leftShift R (dispatchAndReturn q) t u) (leftShift R (dispatchAndReturn p) t u) := by
  unfold leftShift leftShiftBits; relaxed h

theorem rel_shr (R : ITy) (t u : Int) : Upto (rightShift R (dispatchAndReturn q) t u) (rightShift R (dispatchAndReturn p) t u) := by
  unfold rightShift; relaxed h

theorem rel_validate (R : ITy) (mn mx : Int) (T : Opd) (t : Int) : Upto (validate R mn mx q T t) (validate R mn mx p T t) := by
  unfold validate
  refine Upto.bind (.refl _) fun ti => Upto.ite (.refl _) (Upto.ite (.refl _) (Upto.traps h _ ?_))
  exact Upto.bind (rel_cast h ..) fun _ => .refl _

omit [Arch] in
theorem rel_default : Upto (defaultConstruct q) (defaultConstruct p) := by
  unfold defaultConstruct
  refine Upto.traps h _ ?_
  rcases h .uninitialized_value with h | h
  · rw [h]; exact .refl _
  · rw [h]; exact Or.inr rfl

theorem rel_toBuiltin (R : ITy) (T : Opd) (t : Int) : Upto (toBuiltin q R T t) (toBuiltin p R T t) := by
  unfold toBuiltin
  exact Upto.ite (.refl _) (rel_validate h ..)

theorem rel_litToBuiltin (R : ITy) (T : Opd) : Upto (litToBuiltin q R T) (litToBuiltin p R T) := by
  unfold litToBuiltin
  exact Upto.bind (.refl _) fun _ => rel_validate h ..

theorem rel_validateBool (T : Opd) (t : Int) : Upto (validateBool q T t) (validateBool p T t) := by
  unfold validateBool
  refine Upto.bind (.refl _) fun ti => Upto.ite (.refl _) (Upto.ite (.refl _) (Upto.traps h _ ?_))
  exact Upto.bind (rel_cast h ..) fun _ => .refl _

theorem rel_toBool (T : Opd) (t : Int) : Upto (toBool q T t) (toBool p T t) := by
  unfold toBool
  cases T.kind <;> dsimp only
  · exact .refl _
  · exact Upto.ite (.refl _) (rel_validateBool h ..)
  · exact Upto.ite (.refl _) (rel_validateBool h ..)

theorem rel_castOne (R : ITy) (T : Opd) (t : Int) : Upto (castOne q R T t) (castOne p R T t) := by
  unfold castOne
  refine Upto.bind (rel_cast h ..) fun x => Upto.ite ?_ (.refl _)
  unfold castFallback
  cases T.kind <;> dsimp only
  · exact .refl _
  · exact rel_toBuiltin h ..
  · exact rel_litToBuiltin h ..

theorem castStatic_of (R : ITy) (T : Opd) : Upto (castStatic q R T) (castStatic p R T) := by
  unfold castStatic
  relaxed h
  all_goals exact Upto.traps h _ (.refl _)

theorem rel_casting (R : ITy) (T U : Opd) (t u : Int) : Upto (castingHelper q R T U t u) (castingHelper p R T U t u) := by
  unfold castingHelper
  exact Upto.bind (castStatic_of h ..) fun _ => Upto.bind (castStatic_of h ..) fun _ => Upto.bind (rel_castOne h ..) fun _ =>
    Upto.bind (rel_castOne h ..) fun _ => .refl _

theorem rel_runChecked {op : ArithOp} (hop : ∀ R t u, Upto (op.chk R (dispatchAndReturn q) t u) (op.chk R (dispatchAndReturn p) t u))
    (R : ITy) (T U : Opd) (t u : Int) : Upto (runChecked op q R T U t u) (runChecked op p R T U t u) := by
  unfold runChecked
  exact Upto.bind (castStatic_of h ..) fun _ => Upto.bind (castStatic_of h ..) fun _ => Upto.traps h _ <| Upto.bind (rel_casting h ..) fun _ =>
    Upto.bind (hop ..) fun _ => .refl _

theorem rel_runOp {op : ArithOp} (hop : ∀ R t u, Upto (op.chk R (dispatchAndReturn q) t u) (op.chk R (dispatchAndReturn p) t u))
    (R : ITy) (T U : Opd) (t u : Int) : Upto (runOp op q R T U t u) (runOp op p R T U t u) := by
  unfold runOp
  exact Upto.bind (.refl _) fun _ => Upto.ite (rel_runChecked h hop ..) (.refl _)

theorem rel_runDivMod (f : ITy → Itv CR → Itv CR → Out (Itv CR)) (prim : ITy → ITy → Int → Int → Out Int)
    {chk : ITy → Handler → Int → Int → Out CR} (g : ITy → CR → CR → Out CR) (es : List Err)
    (hop : ∀ R t u, Upto (chk R (dispatchAndReturn q) t u) (chk R (dispatchAndReturn p) t u))
    (R : ITy) (T U : Opd) (t u : Int) : Upto (runDivMod f prim chk g es q R T U t u) (runDivMod f prim chk g es p R T U t u) := by
  unfold runDivMod
  refine Upto.bind (.refl _) fun _ => Upto.bind (.refl _) fun _ => Upto.ite ?_ (.refl _)
  refine Upto.bind (.refl _) fun B => ?_
  exact Upto.bind (castStatic_of h ..) fun _ => Upto.bind (castStatic_of h ..) fun _ => Upto.traps h _ <| Upto.bind (rel_casting h ..) fun _ =>
    Upto.bind (hop ..) fun _ => .refl _

theorem rel_arith (pp : PP) (o : Arith) (T U : Opd) (t u : Int) : Upto (arith pp q o T U t u) (arith pp p o T U t u) := by
  unfold arith
  refine Upto.bind (.refl _) fun R => ?_
  cases o
  · exact rel_runOp h (fun _ _ _ => rel_add h ..) ..
  · exact rel_runOp h (fun _ _ _ => rel_sub h ..) ..
  · exact rel_runOp h (fun _ _ _ => rel_mul h ..) ..
  · exact rel_runDivMod h _ _ _ _ (fun _ _ _ => rel_div h ..) ..
  · exact rel_runDivMod h _ _ _ _ (fun _ _ _ => rel_mod h ..) ..

theorem rel_op (pp : PP) (o : Op2) (T U : Opd) (t u : Int) : Upto (o.safeVal pp q T U t u) (o.safeVal pp p T U t u) := by
  cases o with
  | ar o => exact rel_arith h ..
  | bit o => exact .refl _
  | shl =>
    show Upto (Verif.shl pp q T U t u) (Verif.shl pp p T U t u)
    unfold Verif.shl
    exact Upto.bind (.refl _) fun R => rel_runOp h (fun _ _ _ => rel_shl h ..) ..
  | shr =>
    show Upto (Verif.shr pp q T U t u) (Verif.shr pp p T U t u)
    unfold Verif.shr runShr
    exact Upto.bind (.refl _) fun R => Upto.bind (.refl _) fun _ => Upto.bind (.refl _) fun _ => Upto.bind (.refl _) fun _ =>
      Upto.ite (rel_runChecked h (fun _ _ _ => rel_shr h ..) ..) (.refl _)

theorem rel_lt (R : ITy) (T U : Opd) (t u : Int) : Upto (runLt q R T U t u) (runLt p R T U t u) := by
  unfold runLt
  refine Upto.bind (.refl _) fun _ => Upto.bind (.refl _) fun _ => Upto.ite ?_ (.refl _)
  exact Upto.bind (castStatic_of h ..) fun _ => Upto.bind (castStatic_of h ..) fun _ => Upto.ite (.refl _) <| Upto.ite (.refl _) <|
    Upto.bind (rel_casting h ..) fun _ => .refl _

theorem rel_eq (R : ITy) (T U : Opd) (t u : Int) : Upto (runEq q R T U t u) (runEq p R T U t u) := by
  unfold runEq
  refine Upto.bind (.refl _) fun _ => Upto.bind (.refl _) fun _ => Upto.ite ?_ (.refl _)
  exact Upto.bind (castStatic_of h ..) fun _ => Upto.bind (castStatic_of h ..) fun _ => Upto.ite (.refl _) <|
    Upto.bind (rel_casting h ..) fun _ => .refl _

theorem rel_compare (pp : PP) (o : Rel) (T U : Opd) (t u : Int) : Upto (compare pp q o T U t u) (compare pp p o T U t u) := by
  unfold compare
  cases o <;> dsimp only <;> refine Upto.bind (.refl _) fun R => ?_
  · exact rel_lt h ..
  · exact rel_lt h ..
  · exact Upto.bind (rel_lt h ..) fun _ => .refl _
  · exact Upto.bind (rel_lt h ..) fun _ => .refl _
  · exact rel_eq h ..
  · exact Upto.bind (rel_eq h ..) fun _ => .refl _


/-! ### programs -/

theorem rel_validateStatic (R : ITy) (mn mx : Int) (T : Opd) : Upto (validateStatic R mn mx q T) (validateStatic R mn mx p T) := by
  unfold validateStatic
  exact Upto.bind (.refl _) fun ti => Upto.ite (.refl _) (Upto.ite (.refl _) (Upto.traps h _ (.refl _)))

theorem rel_input (T : Opd) (old : Int) (s : IStream) :
    input q T old s = input p T old s ∨ (input q T old s).1 = .fault .illFormed := by
  have hs : Upto (inputStatic q T) (inputStatic p T) := by
    unfold inputStatic
    exact Upto.bind (rel_validateStatic h ..) fun _ => Upto.bind (rel_validateStatic h ..) fun _ => Upto.traps h _ (.refl _)
  unfold input
  rcases hs.symm with hs | hs
  · rw [hs]; exact Or.inr rfl
  rw [hs]
  cases inputStatic p T with
  | thrown e => exact Or.inl rfl
  | fault f => exact Or.inl rfl
  | ret _ =>
    dsimp only
    split
    · unfold inputChar
      rcases IStream.extract tInt some none s with ⟨x, s'⟩
      cases x with
      | none => exact Or.inl rfl
      | some x =>
        dsimp only
        rcases rel_validate h T.base T.lo T.hi (Opd.ofBuiltin tInt) x with e | e
        · rw [e]; exact Or.inl rfl
        · rw [e]; exact Or.inr rfl
    · unfold inputInt
      rcases (inputPrep T s).extract T.base id old with ⟨m, s'⟩
      dsimp only
      split
      · rcases h .domain_error with e | e
        · rw [e]; exact Or.inl rfl
        · exact Or.inr e
      · rcases rel_validate h T.base T.lo T.hi (Opd.ofBuiltin T.base) m with e | e
        · rw [e]; exact Or.inl rfl
        · rw [e]; exact Or.inr rfl

end

section
variable [Arch] {N : Names} {a : N.E → EP}

variable (h : ∀ n, TrapsFor (N.act n) (a n))
include h

theorem rel_ep (T : PTy N) : TrapsFor T.ep (underT a T).ep := by
  unfold PTy.ep underT
  cases T.ex with
  | none => exact fun e => Or.inl rfl
  | some n => exact h n

theorem rel_pBinVal (o : Op2) (T U : PTy N) (t u : Int) : Upto (pBinVal o T U t u) (pBinVal o (underT a T) (underT a U) t u) := by
  show Upto _ (if T.isSafe || U.isSafe then (do
    let q ← common T.pr U.pr
    let e ← common T.ex U.ex
    o.safeVal (N.prom q) (a e) T.opd U.opd t u) else o.cVal T.opd.base U.opd.base t u)
  unfold pBinVal
  split
  · exact Upto.bind (.refl _) fun q => Upto.bind (.refl _) fun e => (rel_op (h e) ..)
  · exact .refl _

theorem rel_pCompare (o : Rel) (T U : PTy N) (t u : Int) : Upto (pCompare o T U t u) (pCompare o (underT a T) (underT a U) t u) := by
  show Upto _ (if T.isSafe || U.isSafe then (do
    let q ← common T.pr U.pr
    let e ← common T.ex U.ex
    compare (N.prom q) (a e) o T.opd U.opd t u) else .ret (cRel o T.opd.base U.opd.base t u))
  unfold pCompare
  split
  · exact Upto.bind (.refl _) fun q => Upto.bind (.refl _) fun e => (rel_compare (h e) ..)
  · exact .refl _

theorem rel_convTo (S T : PTy N) (t : Int) : Upto (convTo S T t) (convTo (underT a S) (underT a T) t) := by
  have hi : (underT a T = underT a S) ↔ T = S := by
    constructor
    · intro g
      have g1 : T.opd = S.opd := congrArg (fun X : PTy (underN N a) => X.opd) g
      have g2 : T.pr = S.pr := congrArg (fun X : PTy (underN N a) => X.pr) g
      have g3 : T.ex = S.ex := congrArg (fun X : PTy (underN N a) => X.ex) g
      cases T; cases S
      cases g1; cases g2; cases g3; rfl
    · intro g; rw [g]
  unfold convTo
  rw [show (underT a S).opd.kind = S.opd.kind from rfl, show (underT a T).opd.kind = T.opd.kind from rfl]
  cases S.opd.kind with
  | builtin =>
    cases T.opd.kind with
    | builtin => exact .refl _
    | safe => exact (rel_toBuiltin (rel_ep h T) ..)
    | lit b => exact (rel_litToBuiltin (rel_ep h T) ..)
  | safe =>
    dsimp only
    by_cases g : T = S
    · rw [if_pos g, if_pos (hi.2 g)]; exact .refl _
    · rw [if_neg g, if_neg (fun g' => g (hi.1 g'))]
      exact (rel_validate (rel_ep h S) ..)
  | lit b => exact .refl _

theorem rel_negVal (T : PTy N) (t : Int) : Upto (negValOf T t) (negValOf (underT a T) t) := by
  unfold negValOf
  rw [show (underT a T).opd.kind = T.opd.kind from rfl]
  cases T.opd.kind with
  | builtin => exact .refl _
  | safe => exact rel_pBinVal h (.ar .sub) (PTy.builtin tInt) T 0 t
  | lit b => exact .refl _

theorem rel_eval (Γ : Fin n → PTy N) (s : Fin n → Int) (e : LExpr N n) :
    Upto (e.eval Γ s) ((underE a e).eval (fun i => underT a (Γ i)) s) := by
  induction e with
  | var i => exact .refl _
  | const B c => exact .refl _
  | lit L => exact .refl _
  | bin o x y hx hy =>
    simp only [underE, LExpr.eval]
    rw [ty_under, ty_under, mapT_bind]
    refine Upto.bind (.refl _) fun T => ?_
    rw [mapT_bind]
    exact Upto.bind (.refl _) fun U => Upto.bind hx fun _ => Upto.bind hy fun _ => rel_pBinVal h ..
  | neg x hx =>
    simp only [underE, LExpr.eval]
    rw [ty_under, mapT_bind]
    exact Upto.bind (.refl _) fun T => Upto.bind hx fun _ => rel_negVal h ..
  | pos x hx => exact hx
  | cast S x hx =>
    simp only [underE, LExpr.eval]
    rw [ty_under, mapT_bind]
    exact Upto.bind (.refl _) fun T => Upto.bind hx fun _ => rel_convTo h ..

theorem rel_cond (Γ : Fin n → PTy N) (s : Fin n → Int) (c : LCond N n) :
    Upto (c.eval Γ s) ((underC a c).eval (fun i => underT a (Γ i)) s) := by
  induction c with
  | cmp o x y =>
    simp only [underC, LCond.eval]
    rw [ty_under, ty_under, mapT_bind]
    refine Upto.bind (.refl _) fun T => ?_
    rw [mapT_bind]
    exact Upto.bind (.refl _) fun U => Upto.bind (rel_eval h ..) fun _ => Upto.bind (rel_eval h ..) fun _ => rel_pCompare h ..
  | truth x =>
    simp only [underC, LCond.eval]
    rw [ty_under, mapT_bind]
    exact Upto.bind (.refl _) fun T => Upto.bind (rel_eval h ..) fun _ => (rel_toBool (rel_ep h T) ..)
  | not c hc => exact Upto.bind hc fun _ => .refl _
  | and c d hc hd =>
    refine Upto.bind hc fun b => ?_
    cases b
    · exact .refl _
    · exact hd
  | or c d hc hd =>
    refine Upto.bind hc fun b => ?_
    cases b
    · exact hd
    · exact .refl _

theorem rel_assignVal (Γ : Fin n → PTy N) (s : Fin n → Int) (i : Fin n) (e : LExpr N n) :
    Upto (assignVal Γ s i e) (assignVal (fun i => underT a (Γ i)) s i (underE a e)) := by
  unfold assignVal
  rw [ty_under, mapT_bind]
  exact Upto.bind (.refl _) fun T => Upto.bind (rel_eval h ..) fun _ => rel_convTo h ..

theorem rel_opAssignVal (Γ : Fin n → PTy N) (s : Fin n → Int) (o : Op2) (i : Fin n) (e : LExpr N n) :
    Upto (opAssignVal Γ s o i e) (opAssignVal (fun i => underT a (Γ i)) s o i (underE a e)) := by
  unfold opAssignVal
  rw [ty_under, mapT_bind]
  refine Upto.bind (.refl _) fun U => Upto.bind (rel_eval h ..) fun u => ?_
  rw [pBinTy_under, mapT_bind]
  exact Upto.bind (.refl _) fun S => Upto.bind (rel_pBinVal h ..) fun v => rel_convTo h ..

theorem rel_output (Γ : Fin n → PTy N) (s : Fin n → Int) (e : LExpr N n) :
    Upto (do
        let T ← e.ty Γ
        let v ← e.eval Γ s
        outputStep T v)
      (do
        let T ← (underE a e).ty fun i => underT a (Γ i)
        let v ← (underE a e).eval (fun i => underT a (Γ i)) s
        outputStep T v) := by
  rw [ty_under, mapT_bind]
  exact Upto.bind (.refl _) fun U => Upto.bind (rel_eval h ..) fun u => .refl _


theorem rel_inputStep (T : PTy N) (old : Int) (s : IStream) :
    inputStep T old s = inputStep (underT a T) old s ∨ (inputStep T old s).1 = .fault .illFormed := by
  show _ = (if T.isSafe then Verif.input (underT a T).ep T.opd old s else _) ∨ _
  unfold inputStep
  by_cases g : T.isSafe = true
  · rw [if_pos g, if_pos g]
    exact rel_input (rel_ep h T) T.opd old s
  · rw [if_neg g, if_neg g]; exact Or.inl rfl

end
end Verif.Release
