import Verif.PromSpec
import Verif.OrderSpec
import Verif.Proofs.Widen

/-!
Helper lemmas for C101: a program under promotion policies that give the same types.
-/

namespace Verif
open Spec Lang Props

section
variable [Arch] {N : Names} {g : N.P → PP} {O : Op2 → Prop} {K : ITy → Prop}

/-- the types, with other meanings of the promotion policies -/
def mapP (g : N.P → PP) (o : Out (PTy N)) : Out (PTy (promN N g)) := o >>= fun T => .ret (promT g T)

theorem mapP_bind {β : Type} (o : Out (PTy N)) (k : PTy (promN N g) → Out β) : (mapP g o >>= k) = (o >>= fun T => k (promT g T)) := by
  cases o <;> rfl

theorem safeTy_result {pp pp' : PP} {o : Op2} {T U : Opd} (h : pp.result (opName o) T U = pp'.result (opName o) T U) :
    o.safeTy pp T U = o.safeTy pp' T U := by
  cases o with
  | ar a => show arithTy pp a T U = arithTy pp' a T U; unfold arithTy; rw [show pp.result a.binOp T U = pp'.result a.binOp T U from h]
  | bit b => show bitwiseTy pp b T U = bitwiseTy pp' b T U; unfold bitwiseTy; rw [show pp.result b.binOp T U = pp'.result b.binOp T U from h]
  | shl => show shlTy pp T U = shlTy pp' T U; unfold shlTy; rw [show pp.result .shl T U = pp'.result .shl T U from h]
  | shr => show shrTy pp T U = shrTy pp' T U; unfold shrTy; rw [show pp.result .shr T U = pp'.result .shr T U from h]

theorem safeVal_result {pp pp' : PP} {p : EP} {o : Op2} {T U : Opd} {t u : Int}
    (h : pp.result (opName o) T U = pp'.result (opName o) T U) : o.safeVal pp p T U t u = o.safeVal pp' p T U t u := by
  cases o with
  | ar a => show arith pp p a T U t u = arith pp' p a T U t u; unfold arith; rw [show pp.result a.binOp T U = pp'.result a.binOp T U from h]
  | bit b => show bitwise pp b T U t u = bitwise pp' b T U t u; unfold bitwise; rw [show pp.result b.binOp T U = pp'.result b.binOp T U from h]
  | shl => show shl pp p T U t u = shl pp' p T U t u; unfold shl; rw [show pp.result .shl T U = pp'.result .shl T U from h]
  | shr => show shr pp p T U t u = shr pp' p T U t u; unfold shr; rw [show pp.result .shr T U = pp'.result .shr T U from h]

theorem compare_result {pp pp' : PP} {p : EP} {o : Rel} {T U : Opd} {t u : Int} (h : pp.result .cmp T U = pp'.result .cmp T U)
    (h' : pp.result .cmp U T = pp'.result .cmp U T) : compare pp p o T U t u = compare pp' p o T U t u := by
  unfold Verif.compare
  cases o <;> simp only [h, h']

theorem resTy_base_of {f : ITy → Itv CR → Itv CR → Out (Itv CR)} {R : ITy} {T U S : Opd} (h : resTy f R T U = .ret S) : S.base = R := by
  unfold resTy at h
  rcases hx : resItv f R T U with ri | x | x <;> rw [hx] at h <;> cases h
  rfl

theorem bitTy_base_of {pick : Int → Int → Int} {R : ITy} {T U S : Opd} (h : bitTy pick R T U = .ret S) : S.base = R := by
  unfold bitTy at h
  dsimp only at h
  rcases hx : Out.static (roundOut R.toUnsigned (pick (conv R.toUnsigned T.hi) (conv R.toUnsigned U.hi))) with m | x | x <;> rw [hx] at h
  · rw [ret_bind] at h
    split at h
    · cases h; rfl
    · cases h
  · cases h
  · cases h

theorem safeTy_base_of {pp : PP} {o : Op2} {T U S : Opd} (h : o.safeTy pp T U = .ret S) : pp.result (opName o) T U = .ret S.base := by
  cases o with
  | ar a =>
    have h : (pp.result a.binOp T U >>= fun R => resTy a.itv R T U) = .ret S := h
    show pp.result a.binOp T U = _
    rcases hx : pp.result a.binOp T U with R | x | x <;> rw [hx] at h
    · rw [resTy_base_of h]
    · cases h
    · cases h
  | bit b =>
    have h : (pp.result b.binOp T U >>= fun R => bitTy b.pick R T U) = .ret S := h
    show pp.result b.binOp T U = _
    rcases hx : pp.result b.binOp T U with R | x | x <;> rw [hx] at h
    · rw [bitTy_base_of h]
    · cases h
    · cases h
  | shl =>
    have h : (pp.result .shl T U >>= fun R => resTy itvShl R T U) = .ret S := h
    show pp.result .shl T U = _
    rcases hx : pp.result .shl T U with R | x | x <;> rw [hx] at h
    · rw [resTy_base_of h]
    · cases h
    · cases h
  | shr =>
    have h : (pp.result .shr T U >>= fun R => resTy itvShr R T U) = .ret S := h
    show pp.result .shr T U = _
    rcases hx : pp.result .shr T U with R | x | x <;> rw [hx] at h
    · rw [resTy_base_of h]
    · cases h
    · cases h

theorem ep_prom (T : PTy N) : (promT g T).ep = T.ep := by
  unfold PTy.ep promT
  cases T.ex <;> rfl

theorem inputStep_prom (T : PTy N) (old : Int) (s : IStream) : inputStep (promT g T) old s = inputStep T old s := by
  unfold inputStep
  rw [ep_prom]
  rfl

variable (hg : AgreeOn N g O K)
include hg

theorem pBinTy_in {o : Op2} {T U S : PTy N} (ho : O o) (hT : K T.opd.base) (hU : K U.opd.base) (h : pBinTy o T U = .ret S) :
    K S.opd.base := by
  unfold pBinTy at h
  split at h
  · rcases common_st T.pr U.pr with ⟨q, eq⟩ | eq <;> rw [eq] at h
    · rcases common_st T.ex U.ex with ⟨e, ee⟩ | ee <;> rw [ee] at h
      · simp only [ret_bind] at h
        rcases hS : o.safeTy (N.prom q) T.opd U.opd with S0 | x | x <;> rw [hS] at h <;> cases h
        exact hg.closed q o _ _ _ ho hT hU (safeTy_base_of hS)
      · cases h
    · cases h
  · cases h; exact hg.builtin o _ _ ho hT hU

theorem pBinTy_prom {o : Op2} {T U : PTy N} (ho : O o) (hT : K T.opd.base) (hU : K U.opd.base) :
    pBinTy o (promT g T) (promT g U) = mapP g (pBinTy o T U) := by
  show (if T.isSafe || U.isSafe then (do
    let q ← common T.pr U.pr
    let e ← common T.ex U.ex
    let S ← o.safeTy (g q) T.opd U.opd
    .ret (PTy.mk (N := promN N g) S (some q) (some e))) else .ret (PTy.builtin (o.cTy T.opd.base U.opd.base))) = _
  unfold pBinTy
  split
  · cases common T.pr U.pr with
    | ret q =>
      cases common T.ex U.ex with
      | ret e =>
        show (o.safeTy (g q) T.opd U.opd >>= _) = mapP g (o.safeTy (N.prom q) T.opd U.opd >>= _)
        rw [safeTy_result (hg.op q o _ _ ho hT hU)]
        cases o.safeTy (N.prom q) T.opd U.opd <;> rfl
      | thrown e => rfl
      | fault f => rfl
    | thrown e => rfl
    | fault f => rfl
  · rfl

theorem negTy_in {T S : PTy N} (hT : K T.opd.base) (h : negTyOf T = .ret S) : K S.opd.base := by
  unfold negTyOf at h
  rcases hk : T.opd.kind with _ | _ | b <;> rw [hk] at h <;> dsimp only at h
  · cases h; exact hg.promoted _ hT
  · exact pBinTy_in hg hg.sub (T := PTy.builtin tInt) hg.int hT h
  · rcases hl : litMinus T.opd with L | x | x <;> rw [hl] at h <;> cases h
    show K L.base
    rw [(litMinus_base hl).1]; exact hT

theorem negTy_prom {T : PTy N} (hT : K T.opd.base) : negTyOf (promT g T) = mapP g (negTyOf T) := by
  unfold negTyOf
  rw [show (promT g T).opd.kind = T.opd.kind from rfl]
  cases hk : T.opd.kind with
  | builtin => rfl
  | safe => exact pBinTy_prom hg hg.sub (T := PTy.builtin tInt) hg.int hT
  | lit b =>
    show (litMinus T.opd >>= _) = mapP g (litMinus T.opd >>= _)
    cases litMinus T.opd <;> rfl

theorem ty_in {n : Nat} {Γ : Fin n → PTy N} (hΓ : ∀ i, K (Γ i).opd.base) :
    ∀ (e : LExpr N n) {T : PTy N}, EUses O K e → e.ty Γ = .ret T → K T.opd.base
  | .var i, T, _, h => by cases h; exact hΓ i
  | .const B c, T, u, h => by cases h; exact u
  | .lit L, T, u, h => by cases h; exact u
  | .cast S a, T, u, h => by cases h; exact u.1
  | .pos a, T, u, h => by
    simp only [LExpr.ty] at h
    rcases ty_st Γ a with ⟨A, ea⟩ | ea <;> rw [ea] at h <;> cases h
    have hA := ty_in hΓ a u ea
    unfold posTyOf
    split
    · exact hg.promoted _ hA
    · exact hA
  | .neg a, T, u, h => by
    simp only [LExpr.ty] at h
    rcases ty_st Γ a with ⟨A, ea⟩ | ea <;> rw [ea] at h
    · exact negTy_in hg (ty_in hΓ a u ea) h
    · cases h
  | .bin o a b, T, u, h => by
    simp only [LExpr.ty] at h
    rcases ty_st Γ a with ⟨A, ea⟩ | ea <;> rw [ea] at h
    · rcases ty_st Γ b with ⟨B, eb⟩ | eb <;> rw [eb] at h
      · exact pBinTy_in hg u.1 (ty_in hΓ a u.2.1 ea) (ty_in hΓ b u.2.2 eb) h
      · cases h
    · cases h

theorem ty_prom {n : Nat} {Γ : Fin n → PTy N} (hΓ : ∀ i, K (Γ i).opd.base) :
    ∀ e : LExpr N n, EUses O K e → (promE g e).ty (fun i => promT g (Γ i)) = mapP g (e.ty Γ)
  | .var i, _ => rfl
  | .const B c, _ => rfl
  | .lit L, _ => rfl
  | .cast S a, _ => rfl
  | .pos a, u => by
    simp only [promE, LExpr.ty]
    rw [ty_prom hΓ a u, mapP_bind]
    cases a.ty Γ with
    | ret A =>
      show Out.ret (posTyOf (promT g A)) = Out.ret (promT g (posTyOf A))
      unfold posTyOf
      rw [show (promT g A).opd.kind = A.opd.kind from rfl]
      cases A.opd.kind <;> rfl
    | thrown e => rfl
    | fault f => rfl
  | .neg a, u => by
    simp only [promE, LExpr.ty]
    rw [ty_prom hΓ a u, mapP_bind]
    rcases ty_st Γ a with ⟨A, ea⟩ | ea <;> rw [ea]
    · exact negTy_prom hg (ty_in hg hΓ a u ea)
    · rfl
  | .bin o a b, u => by
    simp only [promE, LExpr.ty]
    rw [ty_prom hΓ a u.2.1, mapP_bind]
    rcases ty_st Γ a with ⟨A, ea⟩ | ea <;> rw [ea]
    · rw [ret_bind, ty_prom hΓ b u.2.2, mapP_bind]
      rcases ty_st Γ b with ⟨B, eb⟩ | eb <;> rw [eb]
      · exact pBinTy_prom hg u.1 (ty_in hg hΓ a u.2.1 ea) (ty_in hg hΓ b u.2.2 eb)
      · rfl
    · rfl

theorem pBinVal_prom {o : Op2} {T U : PTy N} {t u : Int} (ho : O o) (hT : K T.opd.base) (hU : K U.opd.base) :
    pBinVal o (promT g T) (promT g U) t u = pBinVal o T U t u := by
  show (if T.isSafe || U.isSafe then (do
    let q ← common T.pr U.pr
    let e ← common T.ex U.ex
    o.safeVal (g q) (N.act e) T.opd U.opd t u) else o.cVal T.opd.base U.opd.base t u) = _
  unfold pBinVal
  split
  · cases common T.pr U.pr with
    | ret q =>
      cases common T.ex U.ex with
      | ret e => exact safeVal_result (hg.op q o _ _ ho hT hU)
      | thrown e => rfl
      | fault f => rfl
    | thrown e => rfl
    | fault f => rfl
  · rfl

theorem pCompare_prom {o : Rel} {T U : PTy N} {t u : Int} (hT : K T.opd.base) (hU : K U.opd.base) :
    pCompare o (promT g T) (promT g U) t u = pCompare o T U t u := by
  show (if T.isSafe || U.isSafe then (do
    let q ← common T.pr U.pr
    let e ← common T.ex U.ex
    compare (g q) (N.act e) o T.opd U.opd t u) else .ret (cRel o T.opd.base U.opd.base t u)) = _
  unfold pCompare
  split
  · cases common T.pr U.pr with
    | ret q =>
      cases common T.ex U.ex with
      | ret e => exact compare_result (hg.cmp q _ _ hT hU) (hg.cmp q _ _ hU hT)
      | thrown e => rfl
      | fault f => rfl
    | thrown e => rfl
    | fault f => rfl
  · rfl

omit hg in
theorem convTo_prom (S T : PTy N) (t : Int) : convTo (promT g S) (promT g T) t = convTo S T t := by
  have hi : (promT g T = promT g S) ↔ T = S := by
    constructor
    · intro h
      have g1 : T.opd = S.opd := congrArg (fun X : PTy (promN N g) => X.opd) h
      have g2 : T.pr = S.pr := congrArg (fun X : PTy (promN N g) => X.pr) h
      have g3 : T.ex = S.ex := congrArg (fun X : PTy (promN N g) => X.ex) h
      cases T; cases S
      cases g1; cases g2; cases g3; rfl
    · intro h; rw [h]
  unfold convTo
  rw [ep_prom, ep_prom, show (promT g S).opd.kind = S.opd.kind from rfl, show (promT g T).opd.kind = T.opd.kind from rfl]
  cases S.opd.kind with
  | builtin => cases T.opd.kind <;> rfl
  | safe =>
    dsimp only
    by_cases h : T = S
    · rw [if_pos h, if_pos (hi.2 h)]
    · rw [if_neg h, if_neg (fun h' => h (hi.1 h'))]; rfl
  | lit b => rfl

theorem negVal_prom {T : PTy N} {t : Int} (hT : K T.opd.base) : negValOf (promT g T) t = negValOf T t := by
  unfold negValOf
  rw [show (promT g T).opd.kind = T.opd.kind from rfl]
  cases T.opd.kind with
  | builtin => rfl
  | safe => exact pBinVal_prom hg hg.sub (T := PTy.builtin tInt) hg.int hT
  | lit b => rfl

theorem eval_prom {n : Nat} {Γ : Fin n → PTy N} (hΓ : ∀ i, K (Γ i).opd.base) (s : Fin n → Int) :
    ∀ e : LExpr N n, EUses O K e → (promE g e).eval (fun i => promT g (Γ i)) s = e.eval Γ s
  | .var i, _ => rfl
  | .const B c, _ => rfl
  | .lit L, _ => rfl
  | .pos a, u => eval_prom hΓ s a u
  | .cast S a, u => by
    simp only [promE, LExpr.eval]
    rw [ty_prom hg hΓ a u.2, mapP_bind, eval_prom hΓ s a u.2]
    simp only [convTo_prom]
  | .neg a, u => by
    simp only [promE, LExpr.eval]
    rw [ty_prom hg hΓ a u, mapP_bind, eval_prom hΓ s a u]
    rcases ty_st Γ a with ⟨A, ea⟩ | ea <;> rw [ea]
    · simp only [ret_bind, negVal_prom hg (ty_in hg hΓ a u ea)]
    · rfl
  | .bin o a b, u => by
    simp only [promE, LExpr.eval]
    rw [ty_prom hg hΓ a u.2.1, mapP_bind, ty_prom hg hΓ b u.2.2, eval_prom hΓ s a u.2.1, eval_prom hΓ s b u.2.2]
    rcases ty_st Γ a with ⟨A, ea⟩ | ea <;> rw [ea]
    · rw [ret_bind, ret_bind, mapP_bind]
      rcases ty_st Γ b with ⟨B, eb⟩ | eb <;> rw [eb]
      · simp only [ret_bind, pBinVal_prom hg u.1 (ty_in hg hΓ a u.2.1 ea) (ty_in hg hΓ b u.2.2 eb)]
      · rfl
    · rfl

theorem cond_prom {n : Nat} {Γ : Fin n → PTy N} (hΓ : ∀ i, K (Γ i).opd.base) (s : Fin n → Int) :
    ∀ c : LCond N n, CUses O K c → (promC g c).eval (fun i => promT g (Γ i)) s = c.eval Γ s
  | .cmp o a b, u => by
    simp only [promC, LCond.eval]
    rw [ty_prom hg hΓ a u.1, mapP_bind, ty_prom hg hΓ b u.2, eval_prom hg hΓ s a u.1, eval_prom hg hΓ s b u.2]
    rcases ty_st Γ a with ⟨A, ea⟩ | ea <;> rw [ea]
    · rw [ret_bind, ret_bind, mapP_bind]
      rcases ty_st Γ b with ⟨B, eb⟩ | eb <;> rw [eb]
      · simp only [ret_bind, pCompare_prom hg (ty_in hg hΓ a u.1 ea) (ty_in hg hΓ b u.2 eb)]
      · rfl
    · rfl
  | .truth a, u => by
    simp only [promC, LCond.eval]
    rw [ty_prom hg hΓ a u, mapP_bind, eval_prom hg hΓ s a u]
    simp only [ep_prom]
    rfl
  | .not a, u => by simp only [promC, LCond.eval]; rw [cond_prom hΓ s a u]
  | .and a b, u => by simp only [promC, LCond.eval]; rw [cond_prom hΓ s a u.1, cond_prom hΓ s b u.2]
  | .or a b, u => by simp only [promC, LCond.eval]; rw [cond_prom hΓ s a u.1, cond_prom hΓ s b u.2]

theorem assign_prom {n : Nat} {Γ : Fin n → PTy N} (hΓ : ∀ i, K (Γ i).opd.base) (s : Fin n → Int) (i : Fin n) {e : LExpr N n}
    (u : EUses O K e) : assignVal (fun i => promT g (Γ i)) s i (promE g e) = assignVal Γ s i e := by
  unfold assignVal
  rw [ty_prom hg hΓ e u, mapP_bind, eval_prom hg hΓ s e u]
  simp only [convTo_prom]

theorem opAssign_prom {n : Nat} {Γ : Fin n → PTy N} (hΓ : ∀ i, K (Γ i).opd.base) (s : Fin n → Int) {o : Op2} (ho : O o) (i : Fin n)
    {e : LExpr N n} (u : EUses O K e) : opAssignVal (fun i => promT g (Γ i)) s o i (promE g e) = opAssignVal Γ s o i e := by
  unfold opAssignVal
  rw [ty_prom hg hΓ e u, mapP_bind, eval_prom hg hΓ s e u]
  rcases ty_st Γ e with ⟨A, ea⟩ | ea <;> rw [ea]
  · have hA := ty_in hg hΓ e u ea
    simp only [ret_bind, pBinTy_prom hg ho (hΓ i) hA, mapP_bind, pBinVal_prom hg ho (hΓ i) hA, convTo_prom]
  · rfl

theorem exec_prom {n : Nat} {Γ : Fin n → PTy N} (hΓ : ∀ i, K (Γ i).opd.base) :
    ∀ (f : Nat) (p : LStmt N n) (s : LState n), SUses O K p →
      (promS g p).exec (fun i => promT g (Γ i)) f s = p.exec Γ f s
  | 0, _, _, _ => by simp only [LStmt.exec]
  | _ + 1, .skip, _, _ => rfl
  | _ + 1, .assign i e, s, u => by simp only [promS, LStmt.exec, assign_prom hg hΓ s.st i u]
  | _ + 1, .opAssign o i e, s, u => by simp only [promS, LStmt.exec, opAssign_prom hg hΓ s.st u.1 i u.2]
  | _ + 1, .inc i, s, _ => by
    simp only [promS, LStmt.exec]
    rw [← opAssign_prom hg hΓ s.st hg.add i (e := .const tInt 1) hg.int]
    rfl
  | _ + 1, .dec i, s, _ => by
    simp only [promS, LStmt.exec]
    rw [← opAssign_prom hg hΓ s.st hg.sub i (e := .const tInt 1) hg.int]
    rfl
  | _ + 1, .input i, s, _ => by simp only [promS, LStmt.exec, inputStep_prom]
  | _ + 1, .output e, s, u => by
    simp only [promS, LStmt.exec]
    rw [ty_prom hg hΓ e u, mapP_bind, eval_prom hg hΓ s.st e u]
    rfl
  | f + 1, .seq a b, s, u => by
    simp only [promS, LStmt.exec, exec_prom hΓ f a _ u.1, exec_prom hΓ f b _ u.2]
  | f + 1, .ite c a b, s, u => by
    simp only [promS, LStmt.exec, cond_prom hg hΓ s.st c u.1, exec_prom hΓ f a _ u.2.1, exec_prom hΓ f b _ u.2.2]
  | f + 1, .while c a, s, u => by
    have h := fun s => exec_prom hΓ f (.while c a) s u
    simp only [promS] at h
    simp only [promS, LStmt.exec, cond_prom hg hΓ s.st c u.1, exec_prom hΓ f a _ u.2, h]
  | f + 1, .tryCatch a b, s, u => by
    simp only [promS, LStmt.exec, exec_prom hΓ f a _ u.1, exec_prom hΓ f b _ u.2]

omit hg in
theorem aborts_mapP {β : Type} {o : Out (PTy N)} {r : Out β} (h : Aborts o r) : Aborts (mapP g o) r := by
  cases h
  · exact .thrown _
  · exact .fault _

theorem ty_ret {n : Nat} {Γ : Fin n → PTy N} (hΓ : ∀ i, K (Γ i).opd.base) {e : LExpr N n} {T : PTy N} (u : EUses O K e)
    (h : e.ty Γ = .ret T) : (promE g e).ty (fun i => promT g (Γ i)) = .ret (promT g T) := by
  rw [ty_prom hg hΓ e u, h]; rfl

theorem ty_aborts {n : Nat} {Γ : Fin n → PTy N} (hΓ : ∀ i, K (Γ i).opd.base) {e : LExpr N n} {β : Type} {r : Out β} (u : EUses O K e)
    (h : Aborts (e.ty Γ) r) : Aborts ((promE g e).ty (fun i => promT g (Γ i))) r := by
  rw [ty_prom hg hΓ e u]; exact aborts_mapP h

theorem anyE_prom {n : Nat} {Γ : Fin n → PTy N} (hΓ : ∀ i, K (Γ i).opd.base) {s : Fin n → Int} {e : LExpr N n} {r : Out Int}
    (h : AnyE Γ s e r) : EUses O K e → AnyE (fun i => promT g (Γ i)) s (promE g e) r := by
  induction h with
  | var i => exact fun _ => .var i
  | const B k => exact fun _ => .const B k
  | lit L => exact fun _ => .lit (promT g L)
  | bin ha hb _ _ iha ihb =>
    intro u
    rw [← pBinVal_prom hg u.1 (ty_in hg hΓ _ u.2.1 ha) (ty_in hg hΓ _ u.2.2 hb)]
    exact .bin (ty_ret hg hΓ u.2.1 ha) (ty_ret hg hΓ u.2.2 hb) (iha u.2.1) (ihb u.2.2)
  | binL _ hq ih => exact fun u => .binL (ih u.2.1) hq
  | binR _ hq ih => exact fun u => .binR (ih u.2.2) hq
  | binTyL hq => exact fun u => .binTyL (ty_aborts hg hΓ u.2.1 hq)
  | binTyR hq => exact fun u => .binTyR (ty_aborts hg hΓ u.2.2 hq)
  | neg ha _ ih =>
    intro u
    rw [← negVal_prom hg (ty_in hg hΓ (T := _) _ (by simpa only [EUses] using u) ha)]
    exact .neg (ty_ret hg hΓ u ha) (ih u)
  | negErr _ hq ih => exact fun u => .negErr (ih u) hq
  | negTy hq => exact fun u => .negTy (ty_aborts hg hΓ u hq)
  | pos _ ih => exact fun u => .pos (ih u)
  | cast ha _ ih =>
    intro u
    rw [← convTo_prom (g := g)]
    exact .cast (ty_ret hg hΓ u.2 ha) (ih u.2)
  | castErr _ hq ih => exact fun u => .castErr (ih u.2) hq
  | castTy hq => exact fun u => .castTy (ty_aborts hg hΓ u.2 hq)

theorem anyC_prom {n : Nat} {Γ : Fin n → PTy N} (hΓ : ∀ i, K (Γ i).opd.base) {s : Fin n → Int} {c : LCond N n} {r : Out Bool}
    (h : AnyC Γ s c r) : CUses O K c → AnyC (fun i => promT g (Γ i)) s (promC g c) r := by
  induction h with
  | cmp ha hb ea eb =>
    intro u
    rw [← pCompare_prom hg (ty_in hg hΓ _ u.1 ha) (ty_in hg hΓ _ u.2 hb)]
    exact .cmp (ty_ret hg hΓ u.1 ha) (ty_ret hg hΓ u.2 hb) (anyE_prom hg hΓ ea u.1) (anyE_prom hg hΓ eb u.2)
  | cmpL ha hq => exact fun u => .cmpL (anyE_prom hg hΓ ha u.1) hq
  | cmpR hb hq => exact fun u => .cmpR (anyE_prom hg hΓ hb u.2) hq
  | cmpTyL hq => exact fun u => .cmpTyL (ty_aborts hg hΓ u.1 hq)
  | cmpTyR hq => exact fun u => .cmpTyR (ty_aborts hg hΓ u.2 hq)
  | truth ha ea =>
    intro u
    rw [← ep_prom (g := g)]
    exact .truth (ty_ret hg hΓ u ha) (anyE_prom hg hΓ ea u)
  | truthErr ha hq => exact fun u => .truthErr (anyE_prom hg hΓ ha u) hq
  | truthTy hq => exact fun u => .truthTy (ty_aborts hg hΓ u hq)
  | not _ ih => exact fun u => .not (ih u)
  | notErr _ hq ih => exact fun u => .notErr (ih u) hq
  | andT _ _ i1 i2 => exact fun u => .andT (i1 u.1) (i2 u.2)
  | andF _ ih => exact fun u => .andF (ih u.1)
  | andErr _ hq ih => exact fun u => .andErr (ih u.1) hq
  | orF _ _ i1 i2 => exact fun u => .orF (i1 u.1) (i2 u.2)
  | orT _ ih => exact fun u => .orT (ih u.1)
  | orErr _ hq ih => exact fun u => .orErr (ih u.1) hq

theorem opOnto_prom {n : Nat} {Γ : Fin n → PTy N} (hΓ : ∀ i, K (Γ i).opd.base) {s : Fin n → Int} {o : Op2} {i : Fin n} {U : PTy N}
    {u : Int} (ho : O o) (hU : K U.opd.base) : opOnto (fun i => promT g (Γ i)) s o i (promT g U) u = opOnto Γ s o i U u := by
  unfold opOnto
  simp only [pBinTy_prom hg ho (hΓ i) hU, mapP_bind, pBinVal_prom hg ho (hΓ i) hU, convTo_prom]

theorem anyS_prom {n : Nat} {Γ : Fin n → PTy N} (hΓ : ∀ i, K (Γ i).opd.base) {p : LStmt N n} {s s' : LState n} {r : Out Unit}
    (h : AnyS Γ p s r s') : SUses O K p → AnyS (fun i => promT g (Γ i)) (promS g p) s r s' := by
  induction h with
  | skip s => exact fun _ => .skip s
  | assign h => exact fun u => .assign (anyE_prom hg hΓ h ⟨hΓ _, u⟩)
  | assignErr h hq => exact fun u => .assignErr (anyE_prom hg hΓ h ⟨hΓ _, u⟩) hq
  | opAssign ht he hv =>
    exact fun u => .opAssign (ty_ret hg hΓ u.2 ht) (anyE_prom hg hΓ he u.2) ((opOnto_prom hg hΓ u.1 (ty_in hg hΓ _ u.2 ht)).trans hv)
  | opAssignOp ht he hv =>
    refine fun u => .opAssignOp (ty_ret hg hΓ u.2 ht) (anyE_prom hg hΓ he u.2) ?_
    rw [opOnto_prom hg hΓ u.1 (ty_in hg hΓ _ u.2 ht)]; exact hv
  | opAssignErr he hq => exact fun u => .opAssignErr (anyE_prom hg hΓ he u.2) hq
  | opAssignTy hq => exact fun u => .opAssignTy (ty_aborts hg hΓ u.2 hq)
  | inc _ ih => exact fun _ => .inc (ih ⟨hg.add, hg.int⟩)
  | dec _ ih => exact fun _ => .dec (ih ⟨hg.sub, hg.int⟩)
  | input h => exact fun _ => .input ((inputStep_prom _ _ _).trans h)
  | output ht he ho => exact fun u => .output (ty_ret hg hΓ u ht) (anyE_prom hg hΓ he u) ho
  | outputOp ht he ho => exact fun u => .outputOp (ty_ret hg hΓ u ht) (anyE_prom hg hΓ he u) ho
  | outputErr he hq => exact fun u => .outputErr (anyE_prom hg hΓ he u) hq
  | outputTy hq => exact fun u => .outputTy (ty_aborts hg hΓ u hq)
  | seq _ _ i1 i2 => exact fun u => .seq (i1 u.1) (i2 u.2)
  | seqErr _ hr ih => exact fun u => .seqErr (ih u.1) hr
  | iteT hc _ ih => exact fun u => .iteT (anyC_prom hg hΓ hc u.1) (ih u.2.1)
  | iteF hc _ ih => exact fun u => .iteF (anyC_prom hg hΓ hc u.1) (ih u.2.2)
  | iteErr hc hq => exact fun u => .iteErr (anyC_prom hg hΓ hc u.1) hq
  | whileT hc _ ih => exact fun u => .whileT (anyC_prom hg hΓ hc u.1) (ih ⟨u.2, u⟩)
  | whileF hc => exact fun u => .whileF (anyC_prom hg hΓ hc u.1)
  | whileErr hc hq => exact fun u => .whileErr (anyC_prom hg hΓ hc u.1) hq
  | noCatch _ hr ih => exact fun u => .noCatch (ih u.1) hr
  | handle _ _ i1 i2 => exact fun u => .handle (i1 u.1) (i2 u.2)

/-- the other direction: exchange the policies -/
theorem agree_back : AgreeOn (promN N g) N.prom O K where
  op q o T U ho hT hU := (hg.op q o T U ho hT hU).symm
  cmp q T U hT hU := (hg.cmp q T U hT hU).symm
  closed q o T U R ho hT hU h := hg.closed q o T U R ho hT hU ((hg.op q o T U ho hT hU).symm.trans h)
  builtin := hg.builtin
  promoted := hg.promoted
  int := hg.int
  add := hg.add
  sub := hg.sub

omit hg [Arch] in
theorem promE_back {n : Nat} : ∀ e : LExpr N n, promE (N := promN N g) N.prom (promE g e) = e
  | .var _ => rfl
  | .const _ _ => rfl
  | .lit _ => rfl
  | .pos a => congrArg LExpr.pos (promE_back a)
  | .neg a => congrArg LExpr.neg (promE_back a)
  | .cast S a => congrArg (LExpr.cast S) (promE_back a)
  | .bin o a b => congrArg₂ (LExpr.bin o) (promE_back a) (promE_back b)

omit hg in
theorem promC_back {n : Nat} : ∀ c : LCond N n, promC (N := promN N g) N.prom (promC g c) = c
  | .cmp o a b => congrArg₂ (LCond.cmp o) (promE_back a) (promE_back b)
  | .truth a => congrArg LCond.truth (promE_back a)
  | .not a => congrArg LCond.not (promC_back a)
  | .and a b => congrArg₂ LCond.and (promC_back a) (promC_back b)
  | .or a b => congrArg₂ LCond.or (promC_back a) (promC_back b)

omit hg in
theorem promS_back {n : Nat} : ∀ p : LStmt N n, promS (N := promN N g) N.prom (promS g p) = p
  | .skip => rfl
  | .assign i e => congrArg (LStmt.assign i) (promE_back e)
  | .opAssign o i e => congrArg (LStmt.opAssign o i) (promE_back e)
  | .inc _ => rfl
  | .dec _ => rfl
  | .input _ => rfl
  | .output e => congrArg LStmt.output (promE_back e)
  | .seq a b => congrArg₂ LStmt.seq (promS_back a) (promS_back b)
  | .ite c a b => by
    show LStmt.ite (promC (N := promN N g) N.prom (promC g c)) (promS (N := promN N g) N.prom (promS g a))
      (promS (N := promN N g) N.prom (promS g b)) = LStmt.ite c a b
    rw [promC_back c, promS_back a, promS_back b]
    rfl
  | .while c a => congrArg₂ LStmt.while (promC_back c) (promS_back a)
  | .tryCatch a b => congrArg₂ LStmt.tryCatch (promS_back a) (promS_back b)

omit hg [Arch] in
theorem usesE_prom {n : Nat} : ∀ e : LExpr N n, EUses O K e → EUses O K (promE g e)
  | .var _, _ => trivial
  | .const _ _, h => h
  | .lit _, h => h
  | .pos a, h => usesE_prom a h
  | .neg a, h => usesE_prom a h
  | .cast _ a, h => ⟨h.1, usesE_prom a h.2⟩
  | .bin _ a b, h => ⟨h.1, usesE_prom a h.2.1, usesE_prom b h.2.2⟩

omit hg in
theorem usesC_prom {n : Nat} : ∀ c : LCond N n, CUses O K c → CUses O K (promC g c)
  | .cmp _ a b, h => ⟨usesE_prom a h.1, usesE_prom b h.2⟩
  | .truth a, h => usesE_prom a h
  | .not a, h => usesC_prom a h
  | .and a b, h => ⟨usesC_prom a h.1, usesC_prom b h.2⟩
  | .or a b, h => ⟨usesC_prom a h.1, usesC_prom b h.2⟩

omit hg in
theorem usesS_prom {n : Nat} : ∀ p : LStmt N n, SUses O K p → SUses O K (promS g p)
  | .skip, _ => trivial
  | .assign _ e, h => usesE_prom e h
  | .opAssign _ _ e, h => ⟨h.1, usesE_prom e h.2⟩
  | .inc _, _ => trivial
  | .dec _, _ => trivial
  | .input _, _ => trivial
  | .output e, h => usesE_prom e h
  | .seq a b, h => ⟨usesS_prom a h.1, usesS_prom b h.2⟩
  | .ite c a b, h => ⟨usesC_prom c h.1, usesS_prom a h.2.1, usesS_prom b h.2.2⟩
  | .while c a, h => ⟨usesC_prom c h.1, usesS_prom a h.2⟩
  | .tryCatch a b, h => ⟨usesS_prom a h.1, usesS_prom b h.2⟩

theorem anyS_prom_iff {n : Nat} {Γ : Fin n → PTy N} (hΓ : ∀ i, K (Γ i).opd.base) {p : LStmt N n} {s s' : LState n} {r : Out Unit}
    (hp : SUses O K p) : AnyS (fun i => promT g (Γ i)) (promS g p) s r s' ↔ AnyS Γ p s r s' := by
  refine ⟨fun h => ?_, fun h => anyS_prom hg hΓ h hp⟩
  have := anyS_prom (agree_back hg) (Γ := fun i => promT g (Γ i)) hΓ h (usesS_prom p hp)
  rw [promS_back p] at this
  exact this

end
end Verif
