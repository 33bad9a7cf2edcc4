import Verif.PolicySpec

/-! Helper lemmas for C91: a policy acts on an operation only through the calls of its handlers. -/

namespace Verif
open Spec

/-- the same outcome, or an exception (on the left) with a code for which `q` throws and `p` returns -/
def Upto (q p : EP) {α : Type} (o o' : Out α) : Prop :=
  o = o' ∨ ∃ e, o = .thrown e ∧ dispatch q e = .thrown e ∧ dispatch p e = .ret ()

theorem Upto.refl {q p : EP} {α : Type} (o : Out α) : Upto q p o o := Or.inl rfl

theorem Upto.bind {q p : EP} {α β : Type} {o o' : Out α} {k k' : α → Out β} (h : Upto q p o o') (hk : ∀ x, Upto q p (k x) (k' x)) :
    Upto q p (o >>= k) (o' >>= k') := by
  rcases h with rfl | ⟨e, rfl, h1, h2⟩
  · cases o with
    | ret x => exact hk x
    | thrown e => exact Or.inl rfl
    | fault f => exact Or.inl rfl
  · exact Or.inr ⟨e, rfl, h1, h2⟩

theorem Upto.ite {q p : EP} {α : Type} {c : Prop} [Decidable c] {a b a' b' : Out α} (h : Upto q p a a') (h' : Upto q p b b') :
    Upto q p (if c then a else b) (if c then a' else b') := by
  split
  · exact h
  · exact h'

theorem trap_iff (x : EP) (e : Err) :
    (x.act (makeAction e) == some .trap || x.act (makeAction e) == none) = true ↔ dispatch x e = .fault .illFormed := by
  unfold dispatch
  cases x.act (makeAction e) with
  | none => simp
  | some a =>
    cases a with
    | user f =>
      dsimp only [Act.run]
      constructor
      · intro h; simp at h
      · intro h; split at h <;> cases h
    | _ => simp [Act.run]

theorem traps_of {p q : EP} (h : Stricter q p) (es : List Err) : q.traps es = p.traps es := by
  unfold EP.traps
  congr 1
  funext e
  rw [Bool.eq_iff_iff, trap_iff, trap_iff]
  rcases h e with h | h
  · rw [h]
  · rw [h.1, h.2]; simp

section
variable {q p : EP} (h : Stricter q p)
include h

theorem upto_handler (e : Err) : Upto q p (dispatchAndReturn q e) (dispatchAndReturn p e) := by
  unfold dispatchAndReturn
  rcases h e with h | h
  · rw [h]; exact .refl _
  · rw [h.1]; exact Or.inr ⟨e, rfl, h⟩

/-- closes goals `Upto (f (dispatchAndReturn q)) (f (dispatchAndReturn p))` for code that calls the handler in final position -/
macro "upto" h:term : tactic => `(tactic|
  repeat first
    | exact Upto.refl _
    | exact upto_handler $h _
    | refine Upto.ite ?_ ?_
    | (refine Upto.bind (Upto.refl _) fun _ => ?_))

variable [Arch]

theorem upto_cast (R : ITy) (mn mx : Int) (T : ITy) (t : Int) :
    Upto q p (cast R mn mx T (dispatchAndReturn q) t) (cast R mn mx T (dispatchAndReturn p) t) := by
  unfold cast
  cases R.signed <;> cases T.signed <;> dsimp only <;> upto h

theorem upto_add (R : ITy) (t u : Int) : Upto q p (add R (dispatchAndReturn q) t u) (add R (dispatchAndReturn p) t u) := by
  unfold add; dsimp only; upto h

theorem upto_sub (R : ITy) (t u : Int) : Upto q p (subtract R (dispatchAndReturn q) t u) (subtract R (dispatchAndReturn p) t u) := by
  unfold subtract; dsimp only; upto h

theorem upto_mul (R : ITy) (t u : Int) : Upto q p (multiply R (dispatchAndReturn q) t u) (multiply R (dispatchAndReturn p) t u) := by
  unfold multiply multiplyUFast multiplyUSlow multiplySFast multiplySSlow
  dsimp only
  cases R.signed <;> cases decide (2 ^ R.lg > 2 ^ Arch.maxLg / 2) <;> dsimp only <;> upto h

theorem upto_div (R : ITy) (t u : Int) : Upto q p (divide R (dispatchAndReturn q) t u) (divide R (dispatchAndReturn p) t u) := by
  unfold divide; upto h

theorem upto_mod (R : ITy) (t u : Int) : Upto q p (modulus R (dispatchAndReturn q) t u) (modulus R (dispatchAndReturn p) t u) := by
  unfold modulus; upto h

theorem upto_shl (R : ITy) (t u : Int) : Upto q p (leftShift R (dispatchAndReturn q) t u) (leftShift R (dispatchAndReturn p) t u) := by
  unfold leftShift leftShiftBits; upto h

theorem upto_shr (R : ITy) (t u : Int) : Upto q p (rightShift R (dispatchAndReturn q) t u) (rightShift R (dispatchAndReturn p) t u) := by
  unfold rightShift; upto h

theorem upto_validate (R : ITy) (mn mx : Int) (T : Opd) (t : Int) : Upto q p (validate R mn mx q T t) (validate R mn mx p T t) := by
  unfold validate
  rw [traps_of h]
  refine Upto.bind (.refl _) fun ti => Upto.ite (.refl _) (Upto.ite (.refl _) (Upto.ite (.refl _) ?_))
  exact Upto.bind (upto_cast h ..) fun _ => .refl _

omit [Arch] in
theorem upto_default : Upto q p (defaultConstruct q) (defaultConstruct p) := by
  unfold defaultConstruct
  rw [traps_of h]
  refine Upto.ite (.refl _) ?_
  rcases h .uninitialized_value with h | h
  · rw [h]; exact .refl _
  · rw [h.1]; exact Or.inr ⟨_, rfl, h⟩

theorem upto_toBuiltin (R : ITy) (T : Opd) (t : Int) : Upto q p (toBuiltin q R T t) (toBuiltin p R T t) := by
  unfold toBuiltin
  exact Upto.ite (.refl _) (upto_validate h ..)

theorem upto_litToBuiltin (R : ITy) (T : Opd) : Upto q p (litToBuiltin q R T) (litToBuiltin p R T) := by
  unfold litToBuiltin
  exact Upto.bind (.refl _) fun _ => upto_validate h ..

theorem upto_validateBool (T : Opd) (t : Int) : Upto q p (validateBool q T t) (validateBool p T t) := by
  unfold validateBool
  rw [traps_of h]
  refine Upto.bind (.refl _) fun ti => Upto.ite (.refl _) (Upto.ite (.refl _) (Upto.ite (.refl _) ?_))
  exact Upto.bind (upto_cast h ..) fun _ => .refl _

theorem upto_toBool (T : Opd) (t : Int) : Upto q p (toBool q T t) (toBool p T t) := by
  unfold toBool
  cases T.kind <;> dsimp only
  · exact .refl _
  · exact Upto.ite (.refl _) (upto_validateBool h ..)
  · exact Upto.ite (.refl _) (upto_validateBool h ..)

theorem upto_castOne (R : ITy) (T : Opd) (t : Int) : Upto q p (castOne q R T t) (castOne p R T t) := by
  unfold castOne
  refine Upto.bind (upto_cast h ..) fun x => Upto.ite ?_ (.refl _)
  unfold castFallback
  cases T.kind <;> dsimp only
  · exact .refl _
  · exact upto_toBuiltin h ..
  · exact upto_litToBuiltin h ..

theorem castStatic_of (R : ITy) (T : Opd) : castStatic q R T = castStatic p R T := by
  unfold castStatic; rw [traps_of h]

theorem upto_casting (R : ITy) (T U : Opd) (t u : Int) : Upto q p (castingHelper q R T U t u) (castingHelper p R T U t u) := by
  unfold castingHelper
  rw [castStatic_of h, castStatic_of h]
  exact Upto.bind (.refl _) fun _ => Upto.bind (.refl _) fun _ => Upto.bind (upto_castOne h ..) fun _ =>
    Upto.bind (upto_castOne h ..) fun _ => .refl _

theorem upto_runChecked {op : ArithOp} (hop : ∀ R t u, Upto q p (op.chk R (dispatchAndReturn q) t u) (op.chk R (dispatchAndReturn p) t u))
    (R : ITy) (T U : Opd) (t u : Int) : Upto q p (runChecked op q R T U t u) (runChecked op p R T U t u) := by
  unfold runChecked
  rw [castStatic_of h, castStatic_of h, traps_of h]
  exact Upto.bind (.refl _) fun _ => Upto.bind (.refl _) fun _ => Upto.ite (.refl _) <| Upto.bind (upto_casting h ..) fun _ =>
    Upto.bind (hop ..) fun _ => .refl _

theorem upto_runOp {op : ArithOp} (hop : ∀ R t u, Upto q p (op.chk R (dispatchAndReturn q) t u) (op.chk R (dispatchAndReturn p) t u))
    (R : ITy) (T U : Opd) (t u : Int) : Upto q p (runOp op q R T U t u) (runOp op p R T U t u) := by
  unfold runOp
  exact Upto.bind (.refl _) fun _ => Upto.ite (upto_runChecked h hop ..) (.refl _)

theorem upto_runDivMod (f : ITy → Itv CR → Itv CR → Out (Itv CR)) (prim : ITy → ITy → Int → Int → Out Int)
    {chk : ITy → Handler → Int → Int → Out CR} (g : ITy → CR → CR → Out CR) (es : List Err)
    (hop : ∀ R t u, Upto q p (chk R (dispatchAndReturn q) t u) (chk R (dispatchAndReturn p) t u))
    (R : ITy) (T U : Opd) (t u : Int) : Upto q p (runDivMod f prim chk g es q R T U t u) (runDivMod f prim chk g es p R T U t u) := by
  unfold runDivMod
  refine Upto.bind (.refl _) fun _ => Upto.bind (.refl _) fun _ => Upto.ite ?_ (.refl _)
  refine Upto.bind (.refl _) fun B => ?_
  rw [castStatic_of h, castStatic_of h, traps_of h]
  exact Upto.bind (.refl _) fun _ => Upto.bind (.refl _) fun _ => Upto.ite (.refl _) <| Upto.bind (upto_casting h ..) fun _ =>
    Upto.bind (hop ..) fun _ => .refl _

theorem upto_arith (pp : PP) (o : Arith) (T U : Opd) (t u : Int) : Upto q p (arith pp q o T U t u) (arith pp p o T U t u) := by
  unfold arith
  refine Upto.bind (.refl _) fun R => ?_
  cases o
  · exact upto_runOp h (fun _ _ _ => upto_add h ..) ..
  · exact upto_runOp h (fun _ _ _ => upto_sub h ..) ..
  · exact upto_runOp h (fun _ _ _ => upto_mul h ..) ..
  · exact upto_runDivMod h _ _ _ _ (fun _ _ _ => upto_div h ..) ..
  · exact upto_runDivMod h _ _ _ _ (fun _ _ _ => upto_mod h ..) ..

theorem upto_op (pp : PP) (o : Op2) (T U : Opd) (t u : Int) : Upto q p (o.safeVal pp q T U t u) (o.safeVal pp p T U t u) := by
  cases o with
  | ar o => exact upto_arith h ..
  | bit o => exact .refl _
  | shl =>
    show Upto q p (Verif.shl pp q T U t u) (Verif.shl pp p T U t u)
    unfold Verif.shl
    exact Upto.bind (.refl _) fun R => upto_runOp h (fun _ _ _ => upto_shl h ..) ..
  | shr =>
    show Upto q p (Verif.shr pp q T U t u) (Verif.shr pp p T U t u)
    unfold Verif.shr runShr
    exact Upto.bind (.refl _) fun R => Upto.bind (.refl _) fun _ => Upto.bind (.refl _) fun _ => Upto.bind (.refl _) fun _ =>
      Upto.ite (upto_runChecked h (fun _ _ _ => upto_shr h ..) ..) (.refl _)

theorem upto_lt (R : ITy) (T U : Opd) (t u : Int) : Upto q p (runLt q R T U t u) (runLt p R T U t u) := by
  unfold runLt
  refine Upto.bind (.refl _) fun _ => Upto.bind (.refl _) fun _ => Upto.ite ?_ (.refl _)
  rw [castStatic_of h, castStatic_of h]
  exact Upto.bind (.refl _) fun _ => Upto.bind (.refl _) fun _ => Upto.ite (.refl _) <| Upto.ite (.refl _) <|
    Upto.bind (upto_casting h ..) fun _ => .refl _

theorem upto_eq (R : ITy) (T U : Opd) (t u : Int) : Upto q p (runEq q R T U t u) (runEq p R T U t u) := by
  unfold runEq
  refine Upto.bind (.refl _) fun _ => Upto.bind (.refl _) fun _ => Upto.ite ?_ (.refl _)
  rw [castStatic_of h, castStatic_of h]
  exact Upto.bind (.refl _) fun _ => Upto.bind (.refl _) fun _ => Upto.ite (.refl _) <|
    Upto.bind (upto_casting h ..) fun _ => .refl _

theorem upto_compare (pp : PP) (o : Rel) (T U : Opd) (t u : Int) : Upto q p (compare pp q o T U t u) (compare pp p o T U t u) := by
  unfold compare
  cases o <;> dsimp only <;> refine Upto.bind (.refl _) fun R => ?_
  · exact upto_lt h ..
  · exact upto_lt h ..
  · exact Upto.bind (upto_lt h ..) fun _ => .refl _
  · exact Upto.bind (upto_lt h ..) fun _ => .refl _
  · exact upto_eq h ..
  · exact Upto.bind (upto_eq h ..) fun _ => .refl _

/-! ### programs -/

theorem upto_validateStatic (R : ITy) (mn mx : Int) (T : Opd) : validateStatic R mn mx q T = validateStatic R mn mx p T := by
  unfold validateStatic; rw [traps_of h]

/-- the outcome of the input agrees up to the policy, and the rest entirely unless an exception is thrown only on one side -/
theorem upto_input (T : Opd) (old : Int) (s : IStream) :
    input q T old s = input p T old s ∨
    ∃ e, (input q T old s).1 = .thrown e ∧ dispatch q e = .thrown e ∧ dispatch p e = .ret () := by
  have hs : inputStatic q T = inputStatic p T := by
    unfold inputStatic; rw [upto_validateStatic h, upto_validateStatic h, traps_of h]
  unfold input
  rw [hs]
  cases inputStatic p T with
  | thrown e => exact Or.inl rfl
  | fault f => exact Or.inl rfl
  | ret _ =>
    dsimp only
    split
    · unfold inputChar
      rcases IStream.extract tInt some none s with ⟨x, s'⟩
      cases x with
      | none => exact Or.inl rfl
      | some x =>
        dsimp only
        rcases upto_validate h T.base T.lo T.hi (Opd.ofBuiltin tInt) x with e | ⟨e, e1, e2⟩
        · rw [e]; exact Or.inl rfl
        · rw [e1]; exact Or.inr ⟨e, rfl, e2⟩
    · unfold inputInt
      rcases (inputPrep T s).extract T.base id old with ⟨m, s'⟩
      dsimp only
      split
      · rcases h .domain_error with e | e
        · rw [e]; exact Or.inl rfl
        · exact Or.inr ⟨_, e.1, e⟩
      · rcases upto_validate h T.base T.lo T.hi (Opd.ofBuiltin T.base) m with e | ⟨e, e1, e2⟩
        · rw [e]; exact Or.inl rfl
        · rw [e1]; exact Or.inr ⟨e, rfl, e2⟩

end

section
variable [Arch] {N : Names} {a : N.E → EP}

/-- the same outcome, or an exception (on the left) that another policy of the program would not throw -/
def UptoN (N : Names) (a : N.E → EP) {α : Type} (o o' : Out α) : Prop :=
  o = o' ∨ ∃ e n, o = .thrown e ∧ dispatch (N.act n) e = .thrown e ∧ dispatch (a n) e = .ret ()

theorem UptoN.refl {α : Type} (o : Out α) : UptoN N a o o := Or.inl rfl

theorem Upto.lift {n : N.E} {α : Type} {o o' : Out α} (h : Upto (N.act n) (a n) o o') : UptoN N a o o' := by
  rcases h with h | ⟨e, h⟩
  · exact Or.inl h
  · exact Or.inr ⟨e, n, h⟩

theorem UptoN.bind {α β : Type} {o o' : Out α} {k k' : α → Out β} (h : UptoN N a o o')
    (hk : ∀ x, UptoN N a (k x) (k' x)) : UptoN N a (o >>= k) (o' >>= k') := by
  rcases h with rfl | ⟨e, n, rfl, h1, h2⟩
  · cases o with
    | ret x => exact hk x
    | thrown e => exact Or.inl rfl
    | fault f => exact Or.inl rfl
  · exact Or.inr ⟨e, n, rfl, h1, h2⟩

theorem UptoN.eq {α : Type} {o o' : Out α} (h : UptoN N a o o') (ha : ∀ n, Alike (N.act n) (a n)) : o = o' := by
  rcases h with h | ⟨e, n, _, h1, h2⟩
  · exact h
  · rw [ha n e, h2] at h1; cases h1

/-- the types of a program do not depend on the meaning of its exception policies -/
def mapT (a : N.E → EP) (o : Out (PTy N)) : Out (PTy (underN N a)) := o >>= fun T => .ret (underT a T)

theorem mapT_bind {β : Type} (o : Out (PTy N)) (k : PTy (underN N a) → Out β) : (mapT a o >>= k) = (o >>= fun T => k (underT a T)) := by
  cases o <;> rfl

theorem pBinTy_under (o : Op2) (T U : PTy N) : pBinTy o (underT a T) (underT a U) = mapT a (pBinTy o T U) := by
  show (if T.isSafe || U.isSafe then (do
    let q ← common T.pr U.pr
    let e ← common T.ex U.ex
    let S ← o.safeTy (N.prom q) T.opd U.opd
    .ret (PTy.mk (N := underN N a) S (some q) (some e))) else .ret (PTy.builtin (o.cTy T.opd.base U.opd.base))) = _
  unfold pBinTy
  split
  · cases common T.pr U.pr with
    | ret q =>
      cases common T.ex U.ex with
      | ret e => 
        show (o.safeTy (N.prom q) T.opd U.opd >>= _) = mapT a (o.safeTy (N.prom q) T.opd U.opd >>= _)
        cases o.safeTy (N.prom q) T.opd U.opd <;> rfl
      | thrown e => rfl
      | fault f => rfl
    | thrown e => rfl
    | fault f => rfl
  · rfl

theorem negTy_under (T : PTy N) : negTyOf (underT a T) = mapT a (negTyOf T) := by
  unfold negTyOf
  rw [show (underT a T).opd.kind = T.opd.kind from rfl]
  cases hk : T.opd.kind with
  | builtin => rfl
  | safe => exact pBinTy_under (.ar .sub) (PTy.builtin tInt) T
  | lit b =>
    show (litMinus T.opd >>= _) = mapT a (litMinus T.opd >>= _)
    cases litMinus T.opd <;> rfl

theorem posTy_under (T : PTy N) : posTyOf (underT a T) = underT a (posTyOf T) := by
  unfold posTyOf
  rw [show (underT a T).opd.kind = T.opd.kind from rfl]
  cases hk : T.opd.kind <;> rfl

theorem ty_under (Γ : Fin n → PTy N) (e : LExpr N n) : (underE a e).ty (fun i => underT a (Γ i)) = mapT a (e.ty Γ) := by
  induction e with
  | var i => rfl
  | const B c => rfl
  | lit L => rfl
  | bin o x y hx hy =>
    show ((underE a x).ty _ >>= fun T => (underE a y).ty _ >>= fun U => pBinTy o T U) = mapT a (x.ty Γ >>= fun T => y.ty Γ >>= fun U => pBinTy o T U)
    rw [hx, hy]
    cases x.ty Γ with
    | ret T =>
      cases y.ty Γ with
      | ret U => exact pBinTy_under o T U
      | thrown e => rfl
      | fault f => rfl
    | thrown e => rfl
    | fault f => rfl
  | neg x hx =>
    show ((underE a x).ty _ >>= fun T => negTyOf T) = mapT a (x.ty Γ >>= fun T => negTyOf T)
    rw [hx]
    cases x.ty Γ with
    | ret T => exact negTy_under T
    | thrown e => rfl
    | fault f => rfl
  | pos x hx =>
    show ((underE a x).ty _ >>= fun T => .ret (posTyOf T)) = mapT a (x.ty Γ >>= fun T => .ret (posTyOf T))
    rw [hx]
    cases x.ty Γ with
    | ret T => exact congrArg Out.ret (posTy_under T)
    | thrown e => rfl
    | fault f => rfl
  | cast S x hx => rfl

variable (h : ∀ n, Stricter (N.act n) (a n))
include h

theorem strict_ep (T : PTy N) : Stricter T.ep (underT a T).ep := by
  unfold PTy.ep underT
  cases T.ex with
  | none => exact fun e => Or.inl rfl
  | some n => exact h n

theorem upto_ep {T : PTy N} {α : Type} {o o' : Out α} (hu : Upto T.ep (underT a T).ep o o') : UptoN N a o o' := by
  unfold PTy.ep underT at hu
  cases hx : T.ex with
  | none =>
    simp only [hx] at hu
    rcases hu with hu | ⟨e, _, h1, h2⟩
    · exact Or.inl hu
    · rw [h1] at h2; cases h2
  | some n => simp only [hx] at hu; exact Upto.lift hu

theorem upto_pBinVal (o : Op2) (T U : PTy N) (t u : Int) : UptoN N a (pBinVal o T U t u) (pBinVal o (underT a T) (underT a U) t u) := by
  show UptoN N a _ (if T.isSafe || U.isSafe then (do
    let q ← common T.pr U.pr
    let e ← common T.ex U.ex
    o.safeVal (N.prom q) (a e) T.opd U.opd t u) else o.cVal T.opd.base U.opd.base t u)
  unfold pBinVal
  split
  · exact UptoN.bind (.refl _) fun q => UptoN.bind (.refl _) fun e => (upto_op (h e) ..).lift
  · exact .refl _

theorem upto_pCompare (o : Rel) (T U : PTy N) (t u : Int) : UptoN N a (pCompare o T U t u) (pCompare o (underT a T) (underT a U) t u) := by
  show UptoN N a _ (if T.isSafe || U.isSafe then (do
    let q ← common T.pr U.pr
    let e ← common T.ex U.ex
    compare (N.prom q) (a e) o T.opd U.opd t u) else .ret (cRel o T.opd.base U.opd.base t u))
  unfold pCompare
  split
  · exact UptoN.bind (.refl _) fun q => UptoN.bind (.refl _) fun e => (upto_compare (h e) ..).lift
  · exact .refl _

theorem upto_convTo (S T : PTy N) (t : Int) : UptoN N a (convTo S T t) (convTo (underT a S) (underT a T) t) := by
  have hi : (underT a T = underT a S) ↔ T = S := by
    constructor
    · intro g
      have g1 : T.opd = S.opd := congrArg (fun X : PTy (underN N a) => X.opd) g
      have g2 : T.pr = S.pr := congrArg (fun X : PTy (underN N a) => X.pr) g
      have g3 : T.ex = S.ex := congrArg (fun X : PTy (underN N a) => X.ex) g
      cases T; cases S
      cases g1; cases g2; cases g3; rfl
    · intro g; rw [g]
  unfold convTo
  rw [show (underT a S).opd.kind = S.opd.kind from rfl, show (underT a T).opd.kind = T.opd.kind from rfl]
  cases S.opd.kind with
  | builtin =>
    cases T.opd.kind with
    | builtin => exact .refl _
    | safe => exact upto_ep h (upto_toBuiltin (strict_ep h T) ..)
    | lit b => exact upto_ep h (upto_litToBuiltin (strict_ep h T) ..)
  | safe =>
    dsimp only
    by_cases g : T = S
    · rw [if_pos g, if_pos (hi.2 g)]; exact .refl _
    · rw [if_neg g, if_neg (fun g' => g (hi.1 g'))]
      exact upto_ep h (upto_validate (strict_ep h S) ..)
  | lit b => exact .refl _

theorem upto_negVal (T : PTy N) (t : Int) : UptoN N a (negValOf T t) (negValOf (underT a T) t) := by
  unfold negValOf
  rw [show (underT a T).opd.kind = T.opd.kind from rfl]
  cases T.opd.kind with
  | builtin => exact .refl _
  | safe => exact upto_pBinVal h (.ar .sub) (PTy.builtin tInt) T 0 t
  | lit b => exact .refl _

theorem upto_eval (Γ : Fin n → PTy N) (s : Fin n → Int) (e : LExpr N n) :
    UptoN N a (e.eval Γ s) ((underE a e).eval (fun i => underT a (Γ i)) s) := by
  induction e with
  | var i => exact .refl _
  | const B c => exact .refl _
  | lit L => exact .refl _
  | bin o x y hx hy =>
    simp only [underE, LExpr.eval]
    rw [ty_under, ty_under, mapT_bind]
    refine UptoN.bind (.refl _) fun T => ?_
    rw [mapT_bind]
    exact UptoN.bind (.refl _) fun U => UptoN.bind hx fun _ => UptoN.bind hy fun _ => upto_pBinVal h ..
  | neg x hx =>
    simp only [underE, LExpr.eval]
    rw [ty_under, mapT_bind]
    exact UptoN.bind (.refl _) fun T => UptoN.bind hx fun _ => upto_negVal h ..
  | pos x hx => exact hx
  | cast S x hx =>
    simp only [underE, LExpr.eval]
    rw [ty_under, mapT_bind]
    exact UptoN.bind (.refl _) fun T => UptoN.bind hx fun _ => upto_convTo h ..

theorem upto_cond (Γ : Fin n → PTy N) (s : Fin n → Int) (c : LCond N n) :
    UptoN N a (c.eval Γ s) ((underC a c).eval (fun i => underT a (Γ i)) s) := by
  induction c with
  | cmp o x y =>
    simp only [underC, LCond.eval]
    rw [ty_under, ty_under, mapT_bind]
    refine UptoN.bind (.refl _) fun T => ?_
    rw [mapT_bind]
    exact UptoN.bind (.refl _) fun U => UptoN.bind (upto_eval h ..) fun _ => UptoN.bind (upto_eval h ..) fun _ => upto_pCompare h ..
  | truth x =>
    simp only [underC, LCond.eval]
    rw [ty_under, mapT_bind]
    exact UptoN.bind (.refl _) fun T => UptoN.bind (upto_eval h ..) fun _ => upto_ep h (upto_toBool (strict_ep h T) ..)
  | not c hc => exact UptoN.bind hc fun _ => .refl _
  | and c d hc hd =>
    refine UptoN.bind hc fun b => ?_
    cases b
    · exact .refl _
    · exact hd
  | or c d hc hd =>
    refine UptoN.bind hc fun b => ?_
    cases b
    · exact hd
    · exact .refl _

theorem upto_assignVal (Γ : Fin n → PTy N) (s : Fin n → Int) (i : Fin n) (e : LExpr N n) :
    UptoN N a (assignVal Γ s i e) (assignVal (fun i => underT a (Γ i)) s i (underE a e)) := by
  unfold assignVal
  rw [ty_under, mapT_bind]
  exact UptoN.bind (.refl _) fun T => UptoN.bind (upto_eval h ..) fun _ => upto_convTo h ..

theorem upto_opAssignVal (Γ : Fin n → PTy N) (s : Fin n → Int) (o : Op2) (i : Fin n) (e : LExpr N n) :
    UptoN N a (opAssignVal Γ s o i e) (opAssignVal (fun i => underT a (Γ i)) s o i (underE a e)) := by
  unfold opAssignVal
  rw [ty_under, mapT_bind]
  refine UptoN.bind (.refl _) fun U => UptoN.bind (upto_eval h ..) fun u => ?_
  rw [pBinTy_under, mapT_bind]
  exact UptoN.bind (.refl _) fun S => UptoN.bind (upto_pBinVal h ..) fun v => upto_convTo h ..

theorem upto_output (Γ : Fin n → PTy N) (s : Fin n → Int) (e : LExpr N n) :
    UptoN N a (do
        let T ← e.ty Γ
        let v ← e.eval Γ s
        outputStep T v)
      (do
        let T ← (underE a e).ty fun i => underT a (Γ i)
        let v ← (underE a e).eval (fun i => underT a (Γ i)) s
        outputStep T v) := by
  rw [ty_under, mapT_bind]
  exact UptoN.bind (.refl _) fun U => UptoN.bind (upto_eval h ..) fun u => .refl _

theorem upto_inputStep (T : PTy N) (old : Int) (s : IStream) :
    inputStep T old s = inputStep (underT a T) old s ∨
    ∃ e n, (inputStep T old s).1 = .thrown e ∧ dispatch (N.act n) e = .thrown e ∧ dispatch (a n) e = .ret () := by
  show _ = (if T.isSafe then Verif.input (underT a T).ep T.opd old s else _) ∨ _
  unfold inputStep
  by_cases g : T.isSafe = true
  · rw [if_pos g, if_pos g]
    rcases upto_input (strict_ep h T) T.opd old s with e | ⟨e, e1, e2⟩
    · exact Or.inl e
    · rcases upto_ep h (T := T) (o := (Out.thrown e : Out Unit)) (o' := .ret ()) (Or.inr ⟨e, rfl, e2⟩) with k | ⟨e', n, k, k2⟩
      · cases k
      · cases k; exact Or.inr ⟨e, n, e1, k2⟩
  · rw [if_neg g, if_neg g]; exact Or.inl rfl

end
end Verif
