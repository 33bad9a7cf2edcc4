import Verif.Props.Types
import Verif.ExprSpec

/-!
Properties C34, C35, C36, C38 (unary minus), C39: expressions, programs, compound assignment, increments.
-/

namespace Verif.Props
open Spec
section
variable [Arch]

omit [Arch] in
private theorem ret_bind {α β : Type} (a : α) (f : α → Out β) : (Out.ret a >>= f) = f a := rfl

/-- one operator: exact and within the advertised type, or an exception, or rejected -/
private theorem arith_covered {pp : PP} (hpp : pp.Wf) {p : EP} (hp : p.ae = .throw) {o : Arith} (ho : Covered pp o)
    {T U : Opd} (hT : T.Wf) (hU : U.Wf) {t u : Int} (ht : T.Has t) (hu : U.Has u) :
    (arith pp p o T U t u = .ret (math o t u) ∧ (o = .div → u ≠ 0) ∧
      ∃ S, arithTy pp o T U = .ret S ∧ S.Wf ∧ S.kind = .safe ∧ S.Has (math o t u)) ∨
    (∃ e, arith pp p o T U t u = .thrown e) ∨ arith pp p o T U t u = .fault .illFormed := by
  rcases ho with ho | ⟨rfl, rfl⟩
  · rcases C23_exact pp hpp p hp o ho T U hT hU t u ht hu with h | h | h
    · refine Or.inl ⟨h, ?_, C29_arith pp hpp p (Or.inl hp) o ho T U hT hU t u _ ht hu h⟩
      rcases ho with rfl | rfl | rfl <;> intro h <;> cases h
    · exact Or.inr (Or.inl h)
    · exact Or.inr (Or.inr h)
  · have k := C24_native_exact p hp T U hT hU t u ht hu
    rcases k.1 with h | h | h
    · exact Or.inl ⟨h, fun _ h0 => k.2 h0 _ h, C29_div_native p hp T U hT hU t u _ ht hu h⟩
    · exact Or.inr (Or.inl h)
    · exact Or.inr (Or.inr h)

/-! ### C35 expressions -/

/-- the kind of the type of an expression -/
private theorem ty_kind {n : Nat} {c : Ctx n} (hc : GoodTypes c) {ops : Arith → Prop} :
    ∀ (e : Expr n), SafeExpr ops e → ∀ T, e.ty c = .ret T → (¬ IsConst e → T.kind = .safe)
  | .var i, _, T, h => fun _ => by cases h; exact (hc i).2
  | .const B k, _, T, h => fun g => absurd trivial g
  | .lit L, _, T, h => fun g => absurd trivial g
  | .pos a, hs, T, h => fun g => ty_kind hc a hs T h g
  | .bin o a b, hs, T, h => fun _ => by
    obtain ⟨_, ha, hb, hn⟩ := hs
    simp only [Expr.ty] at h
    rcases ea : a.ty c with A | _ | _
    · rcases eb : b.ty c with B | _ | _
      · rw [ea, eb, ret_bind, ret_bind] at h
        have hk : A.kind = .safe ∨ B.kind = .safe := by
          by_contra hh
          exact hn ⟨by_contra fun g => hh (Or.inl (ty_kind hc a ha A ea g)),
            by_contra fun g => hh (Or.inr (ty_kind hc b hb B eb g))⟩
        unfold binTy at h
        rw [if_pos hk] at h
        unfold arithTy at h
        rcases er : c.pp.result o.binOp A B with R | _ | _
        · rw [er, ret_bind] at h
          unfold resTy at h
          rcases ei : resItv o.itv R A B with ri | _ | _
          · rw [ei, ret_bind] at h; cases h; rfl
          · rw [ei] at h; cases h
          · rw [ei] at h; cases h
        · rw [er] at h; cases h
        · rw [er] at h; cases h
      · rw [ea, eb] at h; cases h
      · rw [ea, eb] at h; cases h
    · rw [ea] at h; cases h
    · rw [ea] at h; cases h
  | .neg a, hs, T, h => fun _ => by
    obtain ⟨ha, hn⟩ := hs
    simp only [Expr.ty] at h
    rcases ea : a.ty c with A | _ | _
    · rw [ea, ret_bind] at h
      unfold binTy at h
      rw [if_pos (Or.inr (ty_kind hc a ha A ea hn))] at h
      unfold arithTy at h
      rcases er : c.pp.result (Arith.binOp .sub) (Opd.ofBuiltin tInt) A with R | _ | _
      · rw [er, ret_bind] at h
        unfold resTy at h
        rcases ei : resItv (Arith.itv .sub) R (Opd.ofBuiltin tInt) A with ri | _ | _
        · rw [ei, ret_bind] at h; cases h; rfl
        · rw [ei] at h; cases h
        · rw [ei] at h; cases h
      · rw [er] at h; cases h
      · rw [er] at h; cases h
    · rw [ea] at h; cases h
    · rw [ea] at h; cases h

omit [Arch] in
private theorem static_cases {α : Type} (x : Out α) : (∃ a, x.static = .ret a) ∨ x.static = .fault .illFormed := by
  cases x
  · exact Or.inl ⟨_, rfl⟩
  · exact Or.inr rfl
  · exact Or.inr rfl

/-- compile time computations yield a type or a rejection -/
private theorem result_static (pp : PP) (o : Arith) (T U : Opd) :
    (∃ R, pp.result o.binOp T U = .ret R) ∨ pp.result o.binOp T U = .fault .illFormed := by
  have ends : ∀ (B : ITy) (i : Itv CR), (∃ R, autoEnds B i = .ret R) ∨ autoEnds B i = .fault .illFormed := by
    intro B i
    unfold autoEnds autoStored
    split <;> exact static_cases _
  have two : ∀ (f : ITy → Itv CR → Itv CR → Out (Itv CR)) (B : ITy),
      (∃ R, (do autoEnds B (← resItv f B T U)) = .ret R) ∨ (do autoEnds B (← resItv f B T U)) = .fault .illFormed := by
    intro f B
    rcases static_cases (do let ti ← castItv B T; let ui ← castItv B U; f B ti ui) with ⟨a, h⟩ | h
    · have h : resItv f B T U = .ret a := h
      rw [h]; exact ends B a
    · have h : resItv f B T U = .fault .illFormed := h
      rw [h]; exact Or.inr rfl
  cases pp with
  | native => exact Or.inl ⟨_, rfl⟩
  | automatic => cases o <;> exact two _ _
  | cpp m =>
    show (∃ R, cppUac m _ _ = .ret R) ∨ cppUac m _ _ = _
    unfold cppUac
    split_ifs <;> first | exact Or.inl ⟨_, rfl⟩ | exact Or.inr rfl

private theorem arithTy_static (pp : PP) (o : Arith) (T U : Opd) :
    (∃ S, arithTy pp o T U = .ret S) ∨ arithTy pp o T U = .fault .illFormed := by
  unfold arithTy
  rcases result_static pp o T U with ⟨R, e⟩ | e
  · rw [e, ret_bind]
    unfold resTy
    rcases static_cases (do let ti ← castItv R T; let ui ← castItv R U; o.itv R ti ui) with ⟨a, h⟩ | h
    · have h : resItv o.itv R T U = .ret a := h
      rw [h]; exact Or.inl ⟨_, rfl⟩
    · have h : resItv o.itv R T U = .fault .illFormed := h
      rw [h]; exact Or.inr rfl
  · rw [e]; exact Or.inr rfl

private theorem ty_static {n : Nat} (c : Ctx n) : ∀ e : Expr n, (∃ T, e.ty c = .ret T) ∨ e.ty c = .fault .illFormed
  | .var i => Or.inl ⟨_, rfl⟩
  | .const B k => Or.inl ⟨_, rfl⟩
  | .lit L => Or.inl ⟨_, rfl⟩
  | .pos a => ty_static c a
  | .bin o a b => by
    simp only [Expr.ty]
    rcases ty_static c a with ⟨A, ea⟩ | ea
    · rcases ty_static c b with ⟨B, eb⟩ | eb
      · rw [ea, eb]; simp only [ret_bind]
        unfold binTy; split
        · exact arithTy_static _ _ _ _
        · exact Or.inl ⟨_, rfl⟩
      · rw [ea, eb]; exact Or.inr rfl
    · rw [ea]; exact Or.inr rfl
  | .neg a => by
    simp only [Expr.ty]
    rcases ty_static c a with ⟨A, ea⟩ | ea
    · rw [ea]; simp only [ret_bind]
      unfold binTy; split
      · exact arithTy_static _ _ _ _
      · exact Or.inl ⟨_, rfl⟩
    · rw [ea]; exact Or.inr rfl

theorem wf_builtin {B : ITy} (h : B.Ok) : (Opd.ofBuiltin B).Wf :=
  ⟨h, B.in_min, B.in_max, B.min_le_max, fun _ => ⟨rfl, rfl⟩, fun b hb => by cases hb⟩

private theorem tInt_ok : tInt.Ok := Arch.intMax
private theorem int_zero : (Opd.ofBuiltin tInt).Has 0 := ITy.in_zero tInt
private theorem int_one : (Opd.ofBuiltin tInt).Has 1 := ITy.in_one tInt

/-- the outcome of an expression: its mathematical value within the bounds of its type, or an exception, or rejected -/
private theorem eval_cases {n : Nat} {c : Ctx n} (hc : GoodTypes c) (hpp : c.pp.Wf) (hp : c.p.ae = .throw)
    {s : Fin n → Int} (hs : InRange c s) :
    ∀ (e : Expr n), SafeExpr (Covered c.pp) e →
      (∃ T v, e.ty c = .ret T ∧ T.Wf ∧ e.eval c s = .ret v ∧ T.Has v ∧ mval s e = some v) ∨
      (∃ x, e.eval c s = .thrown x) ∨ e.eval c s = .fault .illFormed
  | .var i, _ => Or.inl ⟨c.Γ i, s i, rfl, (hc i).1, rfl, hs i, rfl⟩
  | .const B k, h => Or.inl ⟨_, k, rfl, wf_builtin h.1, rfl, h.2, rfl⟩
  | .lit L, h => Or.inl ⟨L, L.lo, rfl, h.1, rfl, ⟨le_refl _, h.1.2.2.2.1⟩, rfl⟩
  | .pos a, h => eval_cases hc hpp hp hs a h
  | .bin o a b, h => by
    obtain ⟨ho, ha, hb, hn⟩ := h
    have ka := eval_cases hc hpp hp hs a ha
    have kb := eval_cases hc hpp hp hs b hb
    simp only [Expr.eval, Expr.ty]
    rcases ty_static c a with ⟨A, ea⟩ | ea
    · rcases ty_static c b with ⟨B, eb⟩ | eb
      · rw [ea, eb]
        simp only [ret_bind]
        rcases ka with ⟨A', x, ea', wA, vx, hx, mx⟩ | ⟨x, ex⟩ | ex
        · rw [ea] at ea'; obtain rfl := Out.ret.inj ea'
          rcases kb with ⟨B', y, eb', wB, vy, hy, my⟩ | ⟨y, ey⟩ | ey
          · rw [eb] at eb'; obtain rfl := Out.ret.inj eb'
            rw [vx, vy]; simp only [ret_bind]
            have hk : A.kind = .safe ∨ B.kind = .safe := by
              by_contra hh
              exact hn ⟨by_contra fun g => hh (Or.inl (ty_kind hc a ha A ea g)),
                by_contra fun g => hh (Or.inr (ty_kind hc b hb B eb g))⟩
            unfold binTy binVal
            rw [if_pos hk, if_pos hk]
            rcases arith_covered hpp hp ho wA wB hx hy with ⟨h1, h2, S, h3, h4, _, h5⟩ | h | h
            · refine Or.inl ⟨S, _, h3, h4, h1, h5, ?_⟩
              simp only [mval, mx, my]
              rw [if_neg]
              rintro ⟨g | g, h0⟩
              · exact h2 g h0
              · subst g
                rcases ho with (g | g | g) | ⟨_, g⟩ <;> cases g
            · exact Or.inr (Or.inl h)
            · exact Or.inr (Or.inr h)
          · rw [vx, ey]; exact Or.inr (Or.inl ⟨y, rfl⟩)
          · rw [vx, ey]; exact Or.inr (Or.inr rfl)
        · rw [ex]; exact Or.inr (Or.inl ⟨x, rfl⟩)
        · rw [ex]; exact Or.inr (Or.inr rfl)
      · rw [ea, eb]; exact Or.inr (Or.inr rfl)
    · rw [ea]; exact Or.inr (Or.inr rfl)
  | .neg a, h => by
    obtain ⟨ha, hn⟩ := h
    have ka := eval_cases hc hpp hp hs a ha
    simp only [Expr.eval, Expr.ty]
    rcases ty_static c a with ⟨A, ea⟩ | ea
    · rw [ea]
      simp only [ret_bind]
      rcases ka with ⟨A', x, ea', wA, vx, hx, mx⟩ | ⟨x, ex⟩ | ex
      · rw [ea] at ea'; obtain rfl := Out.ret.inj ea'
        rw [vx]; simp only [ret_bind]
        have hk : (Opd.ofBuiltin tInt).kind = .safe ∨ A.kind = .safe := Or.inr (ty_kind hc a ha A ea hn)
        unfold binTy binVal
        rw [if_pos hk, if_pos hk]
        rcases arith_covered hpp hp (o := .sub) (Or.inl (Or.inr (Or.inl rfl))) (wf_builtin tInt_ok) wA int_zero hx with
          ⟨h1, h2, S, h3, h4, _, h5⟩ | h | h
        · refine Or.inl ⟨S, _, h3, h4, h1, h5, ?_⟩
          simp [mval, mx, math]
        · exact Or.inr (Or.inl h)
        · exact Or.inr (Or.inr h)
      · rw [ex]; exact Or.inr (Or.inl ⟨x, rfl⟩)
      · rw [ex]; exact Or.inr (Or.inr rfl)
    · rw [ea]; exact Or.inr (Or.inr rfl)

/-- Every expression over safe variables, constants and literals with `+`, `-`, `*`, unary minus and plus (under native
promotion also `/`), of any shape and depth, with a throwing policy: its value is the mathematical value of the expression
and lies within the bounds of its type, or an exception is thrown, or the program does not compile. -/
theorem C35_exact {n : Nat} (c : Ctx n) (hc : GoodTypes c) (hpp : c.pp.Wf) (hp : c.p.ae = .throw) (e : Expr n)
    (he : SafeExpr (Covered c.pp) e) (s : Fin n → Int) (hs : InRange c s) :
    (∃ v, e.eval c s = .ret v ∧ mval s e = some v ∧ ∃ T, e.ty c = .ret T ∧ T.Wf ∧ T.Has v) ∨
    (∃ x, e.eval c s = .thrown x) ∨ e.eval c s = .fault .illFormed := by
  rcases eval_cases hc hpp hp hs e he with ⟨T, v, h1, h2, h3, h4, h5⟩ | h | h
  · exact Or.inl ⟨v, h3, h5, T, h1, h2, h4⟩
  · exact Or.inr (Or.inl h)
  · exact Or.inr (Or.inr h)

/-- An expression that divides by zero anywhere never has a value. -/
theorem C35_zero {n : Nat} (c : Ctx n) (hc : GoodTypes c) (hpp : c.pp.Wf) (hp : c.p.ae = .throw) (e : Expr n)
    (he : SafeExpr (Covered c.pp) e) (s : Fin n → Int) (hs : InRange c s) (h0 : mval s e = none) :
    (∃ x, e.eval c s = .thrown x) ∨ e.eval c s = .fault .illFormed := by
  rcases C35_exact c hc hpp hp e he s hs with ⟨v, _, h, _⟩ | h
  · rw [h0] at h; cases h
  · exact h

/-- What the theorem above leaves out: an operator between two constants is the operator of the language. It has the mathematical
value when operands and result are values of the common type of the constants (for `%` with signed operands also the quotient). -/
theorem C35_const {n : Nat} (c : Ctx n) (s : Fin n → Int) (o : Arith) (B C : ITy) (a b : Int) (ha : (uac B C).In a)
    (hb : (uac B C).In b) (h0 : o = .div ∨ o = .mod → b ≠ 0) (hm : (uac B C).In (math o a b))
    (hq : o = .mod → (uac B C).signed = true → (uac B C).In (a.tdiv b)) :
    (Expr.bin o (.const B a) (.const C b) : Expr n).eval c s = .ret (math o a b) ∧
    (Expr.bin o (.const B a) (.const C b) : Expr n).ty c = .ret (Opd.ofBuiltin (uac B C)) := by
  refine ⟨?_, rfl⟩
  show binVal c o (Opd.ofBuiltin B) (Opd.ofBuiltin C) a b = _
  unfold binVal
  rw [if_neg (by simp [Opd.ofBuiltin])]
  cases o
  · exact cAdd_eq ha hb hm
  · exact cSub_eq ha hb hm
  · exact cMul_eq ha hb hm
  · exact cDiv_eq ha hb (h0 (Or.inl rfl)) hm
  · exact cMod_eq ha hb (h0 (Or.inr rfl)) (hq rfl)

/-- With a trapping policy: either the expression is rejected, whatever the values of the variables are, or it has its
mathematical value for all of them. -/
theorem C35_trap {n : Nat} (c : Ctx n) (hc : GoodTypes c) (hpp : c.pp.Wf) (hp : c.p.ae = .trap) :
    ∀ (e : Expr n), SafeExpr Linear e →
    (∀ s, InRange c s → e.eval c s = .fault .illFormed) ∨
    (∃ T, e.ty c = .ret T ∧ T.Wf ∧ ∀ s, InRange c s → ∃ v, e.eval c s = .ret v ∧ T.Has v ∧ mval s e = some v)
  | .var i, _ => Or.inr ⟨c.Γ i, rfl, (hc i).1, fun s hs => ⟨s i, rfl, hs i, rfl⟩⟩
  | .const B k, h => Or.inr ⟨_, rfl, wf_builtin h.1, fun s _ => ⟨k, rfl, h.2, rfl⟩⟩
  | .lit L, h => Or.inr ⟨L, rfl, h.1, fun s _ => ⟨L.lo, rfl, ⟨le_refl _, h.1.2.2.2.1⟩, rfl⟩⟩
  | .pos a, h => C35_trap c hc hpp hp a h
  | .bin o a b, h => by
    obtain ⟨ho, ha, hb, hn⟩ := h
    have ka := C35_trap c hc hpp hp a ha
    have kb := C35_trap c hc hpp hp b hb
    simp only [Expr.eval, Expr.ty]
    rcases ty_static c a with ⟨A, ea⟩ | ea
    · rcases ty_static c b with ⟨B, eb⟩ | eb
      · rw [ea, eb]
        simp only [ret_bind]
        rcases ka with ka | ⟨A', ea', wA, ka⟩
        · left; intro s hs; rw [ka s hs]; rfl
        · rw [ea] at ea'; obtain rfl := Out.ret.inj ea'
          rcases kb with kb | ⟨B', eb', wB, kb⟩
          · left; intro s hs; obtain ⟨x, ex, _⟩ := ka s hs; rw [ex, kb s hs]; rfl
          · rw [eb] at eb'; obtain rfl := Out.ret.inj eb'
            have hk : A.kind = .safe ∨ B.kind = .safe := by
              by_contra hh
              exact hn ⟨by_contra fun g => hh (Or.inl (ty_kind hc a ha A ea g)),
                by_contra fun g => hh (Or.inr (ty_kind hc b hb B eb g))⟩
            unfold binTy binVal
            simp only [if_pos hk]
            rcases C30_arith c.pp hpp c.p hp o ho A B wA wB with h | h
            · left; intro s hs
              obtain ⟨x, ex, hx, _⟩ := ka s hs
              obtain ⟨y, ey, hy, _⟩ := kb s hs
              rw [ex, ey]; exact h x y hx hy
            · right
              have ra : A.Has A.lo := ⟨le_refl _, wA.2.2.2.1⟩
              have rb : B.Has B.lo := ⟨le_refl _, wB.2.2.2.1⟩
              obtain ⟨S, eS, wS, _, _⟩ := C29_arith c.pp hpp c.p (Or.inr hp) o ho A B wA wB _ _ _ ra rb (h _ _ ra rb)
              refine ⟨S, eS, wS, fun s hs => ?_⟩
              obtain ⟨x, ex, hx, mx⟩ := ka s hs
              obtain ⟨y, ey, hy, my⟩ := kb s hs
              obtain ⟨S', eS', _, _, hS⟩ := C29_arith c.pp hpp c.p (Or.inr hp) o ho A B wA wB _ _ _ hx hy (h _ _ hx hy)
              rw [eS] at eS'; obtain rfl := Out.ret.inj eS'
              refine ⟨math o x y, ?_, hS, ?_⟩
              · rw [ex, ey]; exact h x y hx hy
              · simp only [mval, mx, my]
                rw [if_neg]
                rcases ho with rfl | rfl | rfl <;> simp
      · rw [ea, eb]; exact Or.inl fun _ _ => rfl
    · rw [ea]; exact Or.inl fun _ _ => rfl
  | .neg a, h => by
    obtain ⟨ha, hn⟩ := h
    have ka := C35_trap c hc hpp hp a ha
    simp only [Expr.eval, Expr.ty]
    rcases ty_static c a with ⟨A, ea⟩ | ea
    · rw [ea]
      simp only [ret_bind]
      rcases ka with ka | ⟨A', ea', wA, ka⟩
      · left; intro s hs; rw [ka s hs]; rfl
      · rw [ea] at ea'; obtain rfl := Out.ret.inj ea'
        have hk : (Opd.ofBuiltin tInt).kind = .safe ∨ A.kind = .safe := Or.inr (ty_kind hc a ha A ea hn)
        have wI := wf_builtin tInt_ok
        have ho : Linear .sub := Or.inr (Or.inl rfl)
        unfold binTy binVal
        simp only [if_pos hk]
        rcases C30_arith c.pp hpp c.p hp .sub ho (Opd.ofBuiltin tInt) A wI wA with h | h
        · left; intro s hs
          obtain ⟨x, ex, hx, _⟩ := ka s hs
          rw [ex]; exact h 0 x int_zero hx
        · right
          have ra : A.Has A.lo := ⟨le_refl _, wA.2.2.2.1⟩
          obtain ⟨S, eS, wS, _, _⟩ := C29_arith c.pp hpp c.p (Or.inr hp) .sub ho _ A wI wA _ _ _ int_zero ra
            (h _ _ int_zero ra)
          refine ⟨S, eS, wS, fun s hs => ?_⟩
          obtain ⟨x, ex, hx, mx⟩ := ka s hs
          obtain ⟨S', eS', _, _, hS⟩ := C29_arith c.pp hpp c.p (Or.inr hp) .sub ho _ A wI wA _ _ _ int_zero hx
            (h _ _ int_zero hx)
          rw [eS] at eS'; obtain rfl := Out.ret.inj eS'
          refine ⟨math .sub 0 x, ?_, hS, ?_⟩
          · rw [ex]; exact h 0 x int_zero hx
          · simp [mval, mx, math]
    · rw [ea]; exact Or.inl fun _ _ => rfl

/-! ### C38 unary minus -/

/-- `-x` is the mathematical negation, or an exception, or rejected. -/
theorem C38_neg (pp : PP) (hpp : pp.Wf) (p : EP) (hp : p.ae = .throw) (T : Opd) (hT : T.Wf) (t : Int) (ht : T.Has t) :
    ExactOrThrows (neg pp p T t) (-t) := by
  have h := C23_exact pp hpp p hp .sub (Or.inr (Or.inl rfl)) _ T (wf_builtin tInt_ok) hT 0 t int_zero ht
  rwa [show math .sub 0 t = -t by simp [math]] at h

/-- The value of `-x` lies within the bounds of its type. -/
theorem C38_neg_type (pp : PP) (hpp : pp.Wf) (p : EP) (hp : p.ae = .throw) (T : Opd) (hT : T.Wf) (t v : Int)
    (ht : T.Has t) (hv : neg pp p T t = .ret v) : ∃ S, negTy pp T = .ret S ∧ S.Wf ∧ S.kind = .safe ∧ S.Has v :=
  C29_arith pp hpp p (Or.inl hp) .sub (Or.inr (Or.inl rfl)) _ T (wf_builtin tInt_ok) hT 0 t v int_zero ht hv

/-! ### C39 compound assignment -/

private theorem compound_cases {pp : PP} (hpp : pp.Wf) {p : EP} (hp : p.ae = .throw) {o : Arith} (ho : Covered pp o)
    {T U : Opd} (hT : T.Wf) (hU : U.Wf) {t u : Int} (ht : T.Has t) (hu : U.Has u) :
    (∃ S, arithTy pp o T U = .ret S ∧ S.Wf ∧ S.Has (math o t u) ∧ arith pp p o T U t u = .ret (math o t u) ∧
      (o = .div → u ≠ 0)) ∨
    (∃ S e, arithTy pp o T U = .ret S ∧ arith pp p o T U t u = .thrown e) ∨
    (∃ S, arithTy pp o T U = .ret S ∧ arith pp p o T U t u = .fault .illFormed) ∨
    arithTy pp o T U = .fault .illFormed := by
  rcases arithTy_static pp o T U with ⟨S, e⟩ | e
  · rcases arith_covered hpp hp ho hT hU ht hu with ⟨h1, h2, S', h3, h4, _, h5⟩ | ⟨x, h⟩ | h
    · exact Or.inl ⟨S', h3, h4, h5, h1, h2⟩
    · exact Or.inr (Or.inl ⟨S, x, e, h⟩)
    · exact Or.inr (Or.inr (Or.inl ⟨S, e, h⟩))
  · exact Or.inr (Or.inr (Or.inr e))

/-- `t op= u` for `+`, `-`, `*` (under native promotion also `/`) with a throwing policy: the new value is the
mathematical result and is in the range of the variable, or an exception, or rejected. -/
theorem C39_compound (pp : PP) (hpp : pp.Wf) (p : EP) (hp : p.ae = .throw) (o : Arith) (ho : Covered pp o)
    (T U : Opd) (hT : T.Wf) (hU : U.Wf) (nT : NotLit T) (t u : Int) (ht : T.Has t) (hu : U.Has u) :
    (compound pp p o T U t u = .ret (math o t u) ∧ T.Has (math o t u) ∧ (o = .div → u ≠ 0)) ∨
    (∃ e, compound pp p o T U t u = .thrown e) ∨ compound pp p o T U t u = .fault .illFormed := by
  unfold compound
  rcases compound_cases hpp hp ho hT hU ht hu with ⟨S, e, wS, hS, ev, h0⟩ | ⟨S, x, e, ev⟩ | ⟨S, e, ev⟩ | e
  · rw [e, ret_bind, ev, ret_bind]
    unfold store
    rcases nT with k | k
    · rw [k]; dsimp only
      obtain ⟨h1, h2⟩ := C22_toBuiltin p hp T.base S wS _ hS
      by_cases hi : T.base.In (math o t u)
      · have := hT.2.2.2.2.1 k
        exact Or.inl ⟨h1 hi, ⟨by have := hi.1; omega, by have := hi.2; omega⟩, h0⟩
      · exact Or.inr (Or.inl (h2 hi))
    · rw [k]; dsimp only
      rcases C21_construct p hp T S hT wS _ hS with h | h | h
      · exact Or.inl ⟨h.1, h.2, h0⟩
      · exact Or.inr (Or.inl h.1)
      · exact Or.inr (Or.inr h)
  · rw [e, ret_bind, ev]; exact Or.inr (Or.inl ⟨x, rfl⟩)
  · rw [e, ret_bind, ev]; exact Or.inr (Or.inr rfl)
  · rw [e]; exact Or.inr (Or.inr rfl)

/-- The compound assignment succeeds exactly when the operation succeeds and its result is in the range of the variable. -/
theorem C39_iff (pp : PP) (hpp : pp.Wf) (p : EP) (hp : p.ae = .throw) (o : Arith) (ho : Covered pp o)
    (T U : Opd) (hT : T.Wf) (hU : U.Wf) (nT : NotLit T) (t u w : Int) (ht : T.Has t) (hu : U.Has u) :
    compound pp p o T U t u = .ret w ↔ arith pp p o T U t u = .ret w ∧ T.Has w := by
  unfold compound
  rcases compound_cases hpp hp ho hT hU ht hu with ⟨S, e, wS, hS, ev, h0⟩ | ⟨S, x, e, ev⟩ | ⟨S, e, ev⟩ | e
  · rw [e, ret_bind, ev, ret_bind]
    unfold store
    rcases nT with k | k
    · rw [k]; dsimp only
      obtain ⟨h1, h2⟩ := C22_toBuiltin p hp T.base S wS _ hS
      have hb := hT.2.2.2.2.1 k
      by_cases hi : T.base.In (math o t u)
      · rw [h1 hi]
        refine ⟨fun h => ⟨h, ?_⟩, fun h => h.1⟩
        cases h
        exact ⟨by have := hi.1; omega, by have := hi.2; omega⟩
      · obtain ⟨x, ex⟩ := h2 hi
        rw [ex]
        refine ⟨fun h => by (cases h), fun h => ?_⟩
        obtain ⟨h, h'⟩ := h
        cases h
        exact absurd ⟨by have := h'.1; omega, by have := h'.2; omega⟩ hi
    · rw [k]; dsimp only
      rcases C21_construct p hp T S hT wS _ hS with ⟨h, h'⟩ | ⟨⟨x, h⟩, h'⟩ | h
      · rw [h]
        exact ⟨fun h => ⟨h, by cases h; exact h'⟩, fun h => h.1⟩
      · rw [h]
        exact ⟨fun h => by (cases h), fun g => by obtain ⟨g, g'⟩ := g; cases g; exact absurd g' h'⟩
      · have h' := (C21_rejected p hp T S hT wS _ hS h _ hS).1
        rw [h]
        exact ⟨fun h => by (cases h), fun g => by obtain ⟨g, g'⟩ := g; cases g; exact absurd g' h'⟩
  · rw [e, ret_bind, ev]; exact ⟨fun h => by (cases h), fun h => by (cases h.1)⟩
  · rw [e, ret_bind, ev]; exact ⟨fun h => by (cases h), fun h => by (cases h.1)⟩
  · rw [e]
    refine ⟨fun h => by (cases h), fun h => ?_⟩
    rcases arith_covered hpp hp ho hT hU ht hu with ⟨h1, h2, S', h3, h4, _, h5⟩ | ⟨x, h'⟩ | h'
    · rw [e] at h3; cases h3
    · rw [h'] at h; cases h.1
    · rw [h'] at h; cases h.1

/-- validation of a value that need not lie within the bounds of its type -/
private theorem validate_weak {p : EP} {S T : Opd} (hT : T.Wf) {v : Int} (l : S.base.In S.lo)
    (h : S.base.In S.hi) (hv : S.base.In v) (tv : T.Has v) :
    validate T.base T.lo T.hi p S v = .ret v ∨ validate T.base T.lo T.hi p S v = .fault .illFormed := by
  unfold validate
  have e : castItv T.base S = .ret ⟨castTo T.base S.lo, castTo T.base S.hi⟩ := by
    unfold castItv; rw [checkedCast_eq l, checkedCast_eq h]; rfl
  rw [e, ret_bind]
  dsimp only
  split
  · exact Or.inr rfl
  · split
    · left; rw [conv_of_in (hT.has_in tv)]
    · split
      · exact Or.inr rfl
      · left
        rw [cast_eq hv hT.2.1 hT.2.2.1]
        have := tv.1; have := tv.2
        rw [if_neg (by omega), if_neg (by omega), if_neg (by omega)]; rfl

/-- the type of a remainder has bounds within its base type -/
private theorem modTy_in {T U S : Opd} (hT : T.Wf) (hU : U.Wf) (e : arithTy .native .mod T U = .ret S) :
    S.base = uac T.base U.base ∧ S.base.In S.lo ∧ S.base.In S.hi := by
  obtain ⟨ri, er, pl, pu, _⟩ := modItv_total (R := uac T.base U.base) (t := ⟨castTo _ T.lo, castTo _ T.hi⟩)
    (u := ⟨castTo _ U.lo, castTo _ U.hi⟩) castTo_proper castTo_proper castTo_proper castTo_proper
  have e1 : resItv modItv (uac T.base U.base) T U = .ret ri := resItv_of hT hU er
  have e2 : arithTy .native .mod T U = .ret (Opd.range (uac T.base U.base) (endOr (uac T.base U.base).min ri.l)
      (endOr (uac T.base U.base).max ri.u)) := by
    show resTy modItv (uac T.base U.base) T U = _
    unfold resTy; rw [e1]; rfl
  rw [e2] at e
  obtain rfl := Out.ret.inj e
  refine ⟨rfl, ?_, ?_⟩
  · show (uac T.base U.base).In (endOr (uac T.base U.base).min ri.l)
    unfold endOr; split
    · rename_i w h; rw [h] at pl; exact pl
    · exact ITy.in_min _
  · show (uac T.base U.base).In (endOr (uac T.base U.base).max ri.u)
    unfold endOr; split
    · rename_i w h; rw [h] at pu; exact pu
    · exact ITy.in_max _

omit [Arch] in
private theorem tmod_between (t u : Int) : (0 ≤ t → 0 ≤ t.tmod u ∧ t.tmod u ≤ t) ∧ (t ≤ 0 → t ≤ t.tmod u ∧ t.tmod u ≤ 0) := by
  have key : ∀ x : Int, 0 ≤ x → 0 ≤ x.tmod u ∧ x.tmod u ≤ x := by
    intro x hx
    refine ⟨Int.tmod_nonneg u hx, ?_⟩
    obtain ⟨k, rfl⟩ := Int.eq_ofNat_of_zero_le hx
    rcases Int.natAbs_eq u with h | h
    · rw [h, ← Int.ofNat_tmod]; exact_mod_cast Nat.mod_le _ _
    · rw [h, Int.tmod_neg, ← Int.ofNat_tmod]; exact_mod_cast Nat.mod_le _ _
  refine ⟨key t, fun h => ?_⟩
  have := key (-t) (by omega)
  rw [Int.neg_tmod] at this
  omega

/-- `t %= u` under native promotion, when the range of the variable contains 0 (otherwise the variable may leave its
range, see `C39_mod_refuted`), with the exclusions of `C25_native_partial`. -/
theorem C39_mod_partial (p : EP) (hp : p.ae = .throw) (T U : Opd) (hT : T.Wf) (hU : U.Wf) (kT : T.kind = .safe)
    (t u : Int) (ht : T.Has t) (hu : U.Has u) (h0 : T.Has 0)
    (hx : (uac T.base U.base).signed = true → t = (uac T.base U.base).min → u ≠ (uac T.base U.base).min ∧
      (u = -1 → U.lo ≤ 0 ∧ 0 ≤ U.hi)) :
    (compound .native p .mod T U t u = .ret (t.tmod u) ∧ T.Has (t.tmod u) ∧ u ≠ 0) ∨
    (∃ e, compound .native p .mod T U t u = .thrown e) ∨ compound .native p .mod T U t u = .fault .illFormed := by
  have hin : T.Has (t.tmod u) := by
    have := tmod_between t u
    have := ht.1; have := ht.2; have := h0.1; have := h0.2
    constructor <;> rcases Int.le_total 0 t with h | h <;> simp only [h, true_implies] at * <;> omega
  unfold compound
  obtain ⟨k, kz, _⟩ := C25_native_partial p hp T U hT hU t u ht hu hx
  rcases arithTy_static .native .mod T U with ⟨S, e⟩ | e
  · rw [e, ret_bind]
    rcases k with h | ⟨x, h⟩ | h
    · rw [h, ret_bind]
      have hu0 : u ≠ 0 := fun g => kz g _ h
      unfold store; rw [kT]; dsimp only
      unfold construct
      obtain ⟨sb, sl, sh⟩ := modTy_in hT hU e
      split
      · exact Or.inl ⟨rfl, hin, hu0⟩
      · have hv : S.base.In (t.tmod u) := by
          rw [sb]
          rcases mod_native hp hT hU ht hu hx with hh | ⟨_, hh⟩
          · rw [hh] at h; exact (remIn_ret h).2.2.2.2
          · rw [hh] at h; cases h
        rcases validate_weak (p := p) hT sl sh hv hin with h | h
        · exact Or.inl ⟨h, hin, hu0⟩
        · exact Or.inr (Or.inr h)
    · rw [h]; exact Or.inr (Or.inl ⟨x, rfl⟩)
    · rw [h]; exact Or.inr (Or.inr rfl)
  · rw [e]; exact Or.inr (Or.inr rfl)

/-! ### C36 increment and decrement -/

omit [Arch] in
private theorem notLit_ofBuiltin (B : ITy) : ∀ b, (Opd.ofBuiltin B).kind ≠ .lit b := by intro b h; cases h

omit [Arch] in
private theorem notLit_safe {T : Opd} (h : T.kind = .safe) : ∀ b, T.kind ≠ .lit b := by
  intro b hb; rw [h] at hb; cases hb

/-- `*this = *this ± 1` when the intermediate type is `R` -/
private theorem step_eq {pp : PP} {p : EP} (hp : p.ae = .throw) {o : Arith} (ho : o = .add ∨ o = .sub) {T : Opd}
    (hT : T.Wf) (kT : T.kind = .safe) {R : ITy} (hR : R.Ok) (hres : pp.result o.binOp T (Opd.ofBuiltin tInt) = .ret R)
    {t : Int} (ht : T.Has t) :
    ((R.In t ∧ R.In (math o t 1) ∧ T.Has (math o t 1)) ∧
      (do let S ← arithTy pp o T (Opd.ofBuiltin tInt)
          let v ← arith pp p o T (Opd.ofBuiltin tInt) t 1
          construct p T S v) = .ret (math o t 1)) ∨
    (¬ (R.In t ∧ R.In (math o t 1) ∧ T.Has (math o t 1)) ∧
      ∃ e, (do let S ← arithTy pp o T (Opd.ofBuiltin tInt)
               let v ← arith pp p o T (Opd.ofBuiltin tInt) t 1
               construct p T S v) = .thrown e) := by
  have wI : (Opd.ofBuiltin tInt).Wf := wf_builtin tInt_ok
  have lits : LitsOk R T (Opd.ofBuiltin tInt) := ⟨litOk_not_lit (notLit_safe kT), litOk_not_lit (notLit_ofBuiltin _)⟩
  have hv : arith pp p o T (Opd.ofBuiltin tInt) t 1 = exactIn R t 1 (math o t 1) := by
    unfold arith
    rw [hres, ret_bind]
    rcases ho with rfl | rfl
    · exact (runAdd_throw hp hT wI ht int_one).trans (if_neg (fun g => g.2 lits))
    · exact (runSub_throw hp hT wI ht int_one).trans (if_neg (fun g => g.2 lits))
  have hS : ∀ v, R.In v → (∃ ri, resItv o.itv R T (Opd.ofBuiltin tInt) = .ret ri) := by
    intro v _
    rcases ho with rfl | rfl
    · obtain ⟨ri, e, _⟩ := add_held R hT wI; exact ⟨ri, e⟩
    · obtain ⟨ri, e, _⟩ := sub_held R hT wI; exact ⟨ri, e⟩
  have hty : ∀ u, (Opd.ofBuiltin tInt).Has u → R.In (math o t u) →
      ∃ S, arithTy pp o T (Opd.ofBuiltin tInt) = .ret S ∧ S.Wf ∧ S.Has (math o t u) := by
    intro u hu hi
    unfold arithTy
    rw [hres, ret_bind]
    rcases ho with rfl | rfl
    · obtain ⟨ri, e, p1, p2, h⟩ := add_held R hT wI
      obtain ⟨S, h1, h2, _, _, h3⟩ := resTy_has hR e p1 p2 (h t u ht hu) hi
      exact ⟨S, h1, h2, h3⟩
    · obtain ⟨ri, e, p1, p2, h⟩ := sub_held R hT wI
      obtain ⟨S, h1, h2, _, _, h3⟩ := resTy_has hR e p1 p2 (h t u ht hu) hi
      exact ⟨S, h1, h2, h3⟩
  obtain ⟨S₀, eS₀⟩ : ∃ S, arithTy pp o T (Opd.ofBuiltin tInt) = .ret S := by
    obtain ⟨ri, e⟩ := hS 0 R.in_zero
    unfold arithTy
    rw [hres, ret_bind]
    unfold resTy; rw [e]; exact ⟨_, rfl⟩
  rw [hv]
  by_cases hh : R.In t ∧ R.In (math o t 1)
  · obtain ⟨h1, h2⟩ := hh
    rw [exactIn_of_in h1 (ITy.in_one R) h2]
    obtain ⟨S, eS, wS, hS1⟩ := hty 1 int_one h2
    obtain ⟨S', eS', _, hS0⟩ := hty 0 int_zero (by rcases ho with rfl | rfl <;> simpa [math] using h1)
    rw [eS] at eS'; obtain rfl := Out.ret.inj eS'
    have hS0 : S.Has t := by rcases ho with rfl | rfl <;> simpa [math] using hS0
    rw [eS]; simp only [ret_bind]
    rcases C21_construct p hp T S hT wS _ hS1 with ⟨h, h'⟩ | ⟨h, h'⟩ | h
    · exact Or.inl ⟨⟨h1, h2, h'⟩, h⟩
    · exact Or.inr ⟨fun g => h' g.2.2, h⟩
    · exact absurd ht (C21_rejected p hp T S hT wS _ hS1 h t hS0).1
  · right
    refine ⟨fun g => hh ⟨g.1, g.2.1⟩, ?_⟩
    rw [eS₀]; simp only [ret_bind]
    rcases hx : exactIn R t 1 (math o t 1) with v | e | f
    · obtain ⟨rfl, a, _, b⟩ := exactIn_ret hx
      exact absurd ⟨a, b⟩ hh
    · exact ⟨e, rfl⟩
    · unfold exactIn orThrow at hx
      split at hx
      · cases hx
      · cases hx
      · split at hx <;> cases hx

/-- `++x` with any promotion policy that gives the type `R` for `x + 1`: `x + 1` if this is within the range of the variable
and representable in the intermediate type together with `x`; otherwise an exception. It is always accepted by the
compiler. -/
theorem C36_inc (pp : PP) (p : EP) (hp : p.ae = .throw) (T : Opd) (hT : T.Wf) (kT : T.kind = .safe) (R : ITy)
    (hR : R.Ok) (hres : pp.result .add T (Opd.ofBuiltin tInt) = .ret R) (t : Int) (ht : T.Has t) :
    (R.In t ∧ R.In (t + 1) ∧ T.Has (t + 1) → preInc pp p T t = .ret (t + 1) ∧ postInc pp p T t = .ret (t, t + 1)) ∧
    (¬ (R.In t ∧ R.In (t + 1) ∧ T.Has (t + 1)) →
      ∃ e, preInc pp p T t = .thrown e ∧ postInc pp p T t = .thrown e) := by
  unfold postInc
  rcases step_eq hp (Or.inl rfl) hT kT hR hres ht with ⟨h, h'⟩ | ⟨h, e, h'⟩
  · have h' : preInc pp p T t = .ret (t + 1) := h'
    exact ⟨fun _ => by rw [h']; exact ⟨rfl, rfl⟩, fun g => absurd h g⟩
  · have h' : preInc pp p T t = .thrown e := h'
    exact ⟨fun g => absurd g h, fun _ => ⟨e, by rw [h']; exact ⟨rfl, rfl⟩⟩⟩

/-- `--x` in the same way -/
theorem C36_dec (pp : PP) (p : EP) (hp : p.ae = .throw) (T : Opd) (hT : T.Wf) (kT : T.kind = .safe) (R : ITy)
    (hR : R.Ok) (hres : pp.result .sub T (Opd.ofBuiltin tInt) = .ret R) (t : Int) (ht : T.Has t) :
    (R.In t ∧ R.In (t - 1) ∧ T.Has (t - 1) → preDec pp p T t = .ret (t - 1) ∧ postDec pp p T t = .ret (t, t - 1)) ∧
    (¬ (R.In t ∧ R.In (t - 1) ∧ T.Has (t - 1)) →
      ∃ e, preDec pp p T t = .thrown e ∧ postDec pp p T t = .thrown e) := by
  unfold postDec
  rcases step_eq hp (Or.inr rfl) hT kT hR hres ht with ⟨h, h'⟩ | ⟨h, e, h'⟩
  · have h' : preDec pp p T t = .ret (t - 1) := h'
    exact ⟨fun _ => by rw [h']; exact ⟨rfl, rfl⟩, fun g => absurd h g⟩
  · have h' : preDec pp p T t = .thrown e := h'
    exact ⟨fun g => absurd g h, fun _ => ⟨e, by rw [h']; exact ⟨rfl, rfl⟩⟩⟩

/-- Under native promotion the intermediate type plays no role: `++x` and `--x` throw exactly when the new value is outside
the range of the variable. -/
theorem C36_native (p : EP) (hp : p.ae = .throw) (T : Opd) (hT : T.Wf) (kT : T.kind = .safe) (t : Int) (ht : T.Has t) :
    (t < T.hi → preInc .native p T t = .ret (t + 1)) ∧ (t = T.hi → ∃ e, preInc .native p T t = .thrown e) ∧
    (T.lo < t → preDec .native p T t = .ret (t - 1)) ∧ (t = T.lo → ∃ e, preDec .native p T t = .thrown e) := by
  have wI : (Opd.ofBuiltin tInt).Wf := wf_builtin tInt_ok
  have hR := uac_ok hT.1 wI.1
  have hin : ∀ x, T.Has x → (uac T.base tInt).In x := by
    intro x hx
    obtain ⟨f1, _⟩ := native_fits hT wI
    have f1 : T.hi ≤ (uac T.base tInt).max ∧ ((uac T.base tInt).signed = true → (uac T.base tInt).min ≤ T.lo) := f1
    have := hx.1; have := hx.2
    refine ⟨?_, by omega⟩
    by_cases hs : (uac T.base tInt).signed = true
    · have := f1.2 hs; omega
    · have hs : (uac T.base tInt).signed = false := by simpa using hs
      have e := ITy.min_eq (uac T.base tInt)
      rw [hs] at e; simp at e
      have : T.base.signed = false := by
        by_contra g
        have g : T.base.signed = true := by simpa using g
        have : (uac T.base tInt).signed = true := by
          unfold uac
          have hp : (promote T.base).signed = true := by
            unfold promote; split <;> first | rfl | exact g
          have hp' : (promote tInt).signed = true := by
            unfold promote; split <;> rfl
          simp only [hp, hp', if_true]
          split_ifs <;> assumption
        rw [hs] at this; cases this
      have := (hT.has_in hx).nonneg this
      omega
  have a := ht.1; have b := ht.2
  obtain ⟨i1, i2⟩ := C36_inc .native p hp T hT kT _ hR rfl t ht
  obtain ⟨d1, d2⟩ := C36_dec .native p hp T hT kT _ hR rfl t ht
  refine ⟨fun h => ?_, fun h => ?_, fun h => ?_, fun h => ?_⟩
  · have h' : T.Has (t + 1) := ⟨by omega, by omega⟩
    exact (i1 ⟨hin t ht, hin _ h', h'⟩).1
  · obtain ⟨e, he, _⟩ := i2 (fun g => by have := g.2.2.2; omega)
    exact ⟨e, he⟩
  · have h' : T.Has (t - 1) := ⟨by omega, by omega⟩
    exact (d1 ⟨hin t ht, hin _ h', h'⟩).1
  · obtain ⟨e, he, _⟩ := d2 (fun g => by have := g.2.2.1; omega)
    exact ⟨e, he⟩

/-! ### C34 programs -/

/-- a computation that changes only the variable `i`, and that only if it returns -/
private def Local {n : Nat} (i : Fin n) (m : SM n Unit) : Prop :=
  ∀ s, (m s).2 = s ∨ ((m s).1 = .ret () ∧ ∃ w, (m s).2 = fun j => if j = i then w else s j)

omit [Arch] in
private theorem local_lift {n : Nat} {α : Type} {i : Fin n} {o : Out α} {f : α → SM n Unit} (h : ∀ a, Local i (f a)) :
    Local i (SM.lift o >>= f) := by
  intro s
  cases o with
  | ret a => exact h a s
  | thrown e => exact Or.inl rfl
  | fault k => exact Or.inl rfl

omit [Arch] in
private theorem local_read {n : Nat} {i j : Fin n} {f : Int → SM n Unit} (h : ∀ a, Local i (f a)) :
    Local i (SM.read j >>= f) := fun s => h (s j) s

omit [Arch] in
private theorem local_write {n : Nat} {i : Fin n} {w : Int} : Local i (SM.write i w) :=
  fun _ => Or.inr ⟨rfl, w, rfl⟩

private theorem local_assign {n : Nat} {c : Ctx n} {i : Fin n} {S : Opd} {v : Int} : Local i (assignFrom c i S v) :=
  local_lift fun _ => local_write

/-- Every statement whatsoever (any operators, any policies, any values): if it does not return normally, in particular if it
throws, no variable has changed; if it returns, at most its target has changed. -/
theorem C34_strong {n : Nat} (c : Ctx n) (st : Stmt n) (s : Fin n → Int) :
    ((st.exec c s).1 ≠ .ret () → (st.exec c s).2 = s) ∧ ∀ j, j ≠ target st → (st.exec c s).2 j = s j := by
  have key : (st.exec c s).2 = s ∨ ((st.exec c s).1 = .ret () ∧ ∃ w, (st.exec c s).2 = fun j => if j = target st then w else s j) := by
    cases st with
    | assign i e => exact local_lift (fun S => local_lift fun v => local_assign) s
    | opAssign o i e =>
      exact local_lift (fun U => local_lift fun u => local_read fun t => local_lift fun S => local_lift fun v =>
        local_lift fun w => local_assign) s
    | inc i => exact local_read (fun t => local_lift fun S => local_lift fun v => local_assign) s
    | dec i => exact local_read (fun t => local_lift fun S => local_lift fun v => local_assign) s
  rcases key with h | ⟨h, w, h'⟩
  · exact ⟨fun _ => h, fun j _ => by rw [h]⟩
  · exact ⟨fun g => absurd h g, fun j hj => by rw [h']; exact if_neg hj⟩

omit [Arch] in
private theorem lift_ret {n : Nat} {α β : Type} (a : α) (f : α → SM n β) : (SM.lift (.ret a) >>= f) = f a := rfl
omit [Arch] in
private theorem lift_thrown {n : Nat} {α β : Type} (e : Err) (f : α → SM n β) (s : Fin n → Int) :
    (SM.lift (.thrown e) >>= f) s = (.thrown e, s) := rfl
omit [Arch] in
private theorem lift_fault {n : Nat} {α β : Type} (e : Fault) (f : α → SM n β) (s : Fin n → Int) :
    (SM.lift (.fault e) >>= f) s = (.fault e, s) := rfl

/-- the store after `x := v`, as the specification sees it -/
private theorem assign_ok {n : Nat} {c : Ctx n} (hc : GoodTypes c) (hp : c.p.ae = .throw) {i : Fin n} {S : Opd} (wS : S.Wf)
    {v : Int} (hv : S.Has v) (s : Fin n → Int) :
    (assignFrom c i S v s = (.ret (), fun j => if j = i then v else s j) ∧ (c.Γ i).Has v) ∨
    (∃ e, assignFrom c i S v s = (.thrown e, s)) ∨ assignFrom c i S v s = (.fault .illFormed, s) := by
  unfold assignFrom
  rcases C21_construct c.p hp (c.Γ i) S (hc i).1 wS v hv with ⟨h, h'⟩ | ⟨⟨e, h⟩, _⟩ | h
  · rw [h]; exact Or.inl ⟨rfl, h'⟩
  · rw [h]; exact Or.inr (Or.inl ⟨e, rfl⟩)
  · rw [h]; exact Or.inr (Or.inr rfl)

private theorem opAssign_ok {n : Nat} {c : Ctx n} (hc : GoodTypes c) (hpp : c.pp.Wf) (hp : c.p.ae = .throw) {o : Arith}
    (ho : Covered c.pp o) {i : Fin n} {U : Opd} (wU : U.Wf) {u : Int} (hu : U.Has u) {s : Fin n → Int}
    (hs : InRange c s) :
    (opAssign c o i U u s = (.ret (), fun j => if j = i then math o (s i) u else s j) ∧ (c.Γ i).Has (math o (s i) u) ∧
      (o = .div → u ≠ 0)) ∨
    (∃ e, opAssign c o i U u s = (.thrown e, s)) ∨ opAssign c o i U u s = (.fault .illFormed, s) := by
  have e0 : opAssign c o i U u s = (SM.lift (arithTy c.pp o (c.Γ i) U) >>= fun S =>
      SM.lift (arith c.pp c.p o (c.Γ i) U (s i) u) >>= fun v => SM.lift (construct c.p (c.Γ i) S v) >>= fun w =>
      assignFrom c i (c.Γ i) w) s := rfl
  rw [e0]
  rcases compound_cases hpp hp ho (hc i).1 wU (hs i) hu with ⟨S, e, wS, hS, ev, h0⟩ | ⟨S, x, e, ev⟩ | ⟨S, e, ev⟩ | e
  · rw [e, lift_ret, ev, lift_ret]
    rcases C21_construct c.p hp (c.Γ i) S (hc i).1 wS _ hS with ⟨h, h'⟩ | ⟨⟨x, h⟩, _⟩ | h
    · rw [h, lift_ret]
      refine Or.inl ⟨?_, h', h0⟩
      unfold assignFrom construct
      rw [if_pos rfl]; rfl
    · rw [h]; exact Or.inr (Or.inl ⟨x, rfl⟩)
    · rw [h]; exact Or.inr (Or.inr rfl)
  · rw [e, lift_ret, ev]; exact Or.inr (Or.inl ⟨x, rfl⟩)
  · rw [e, lift_ret, ev]; exact Or.inr (Or.inr rfl)
  · rw [e]; exact Or.inr (Or.inr rfl)

private theorem crement_ok {n : Nat} {c : Ctx n} (hc : GoodTypes c) (hpp : c.pp.Wf) (hp : c.p.ae = .throw) {o : Arith}
    (ho : o = .add ∨ o = .sub) (i : Fin n) {s : Fin n → Int} (hs : InRange c s) :
    (crement c o i s = (.ret (), fun j => if j = i then math o (s i) 1 else s j) ∧ (c.Γ i).Has (math o (s i) 1)) ∨
    (∃ e, crement c o i s = (.thrown e, s)) ∨ crement c o i s = (.fault .illFormed, s) := by
  have e0 : crement c o i s = (SM.lift (arithTy c.pp o (c.Γ i) (Opd.ofBuiltin tInt)) >>= fun S =>
      SM.lift (arith c.pp c.p o (c.Γ i) (Opd.ofBuiltin tInt) (s i) 1) >>= fun v => assignFrom c i S v) s := rfl
  rw [e0]
  have ho' : Covered c.pp o := by rcases ho with rfl | rfl; exacts [Or.inl (Or.inl rfl), Or.inl (Or.inr (Or.inl rfl))]
  rcases compound_cases hpp hp ho' (hc i).1 (wf_builtin tInt_ok) (hs i) int_one with
    ⟨S, e, wS, hS, ev, h0⟩ | ⟨S, x, e, ev⟩ | ⟨S, e, ev⟩ | e
  · rw [e, lift_ret, ev, lift_ret]
    exact assign_ok hc hp wS hS s
  · rw [e, lift_ret, ev]; exact Or.inr (Or.inl ⟨x, rfl⟩)
  · rw [e, lift_ret, ev]; exact Or.inr (Or.inr rfl)
  · rw [e]; exact Or.inr (Or.inr rfl)

/-- One statement with covered operators and a throwing policy, executed with all variables in range: it gives its target
the mathematical value, which is in range, and changes nothing else; or it throws and changes nothing; or the program does
not compile. -/
theorem C34_step {n : Nat} (c : Ctx n) (hc : GoodTypes c) (hpp : c.pp.Wf) (hp : c.p.ae = .throw) (st : Stmt n)
    (hst : SafeStmt (Covered c.pp) st) (s : Fin n → Int) (hs : InRange c s) :
    (∃ w, st.exec c s = (.ret (), fun j => if j = target st then w else s j) ∧ newValue s st = some w ∧
      (c.Γ (target st)).Has w) ∨
    (∃ e, st.exec c s = (.thrown e, s)) ∨ st.exec c s = (.fault .illFormed, s) := by
  cases st with
  | assign i e =>
    have e0 : (Stmt.assign i e).exec c s = (SM.lift (e.ty c) >>= fun S => SM.lift (e.eval c s) >>= fun v =>
      assignFrom c i S v) s := rfl
    rw [e0]
    rcases ty_static c e with ⟨T, eT⟩ | eT
    · rw [eT, lift_ret]
      rcases eval_cases hc hpp hp hs e hst with ⟨T', v, eT', wT, ev, hv, mv⟩ | ⟨x, ev⟩ | ev
      · rw [eT] at eT'; obtain rfl := Out.ret.inj eT'
        rw [ev, lift_ret]
        rcases assign_ok hc hp (i := i) wT hv s with ⟨h, h'⟩ | h | h
        · exact Or.inl ⟨v, h, mv, h'⟩
        · exact Or.inr (Or.inl h)
        · exact Or.inr (Or.inr h)
      · rw [ev]; exact Or.inr (Or.inl ⟨x, rfl⟩)
      · rw [ev]; exact Or.inr (Or.inr rfl)
    · rw [eT]; exact Or.inr (Or.inr rfl)
  | opAssign o i e =>
    obtain ⟨ho, he⟩ := hst
    have e0 : (Stmt.opAssign o i e).exec c s = (SM.lift (e.ty c) >>= fun S => SM.lift (e.eval c s) >>= fun v =>
      opAssign c o i S v) s := rfl
    rw [e0]
    rcases ty_static c e with ⟨T, eT⟩ | eT
    · rw [eT, lift_ret]
      rcases eval_cases hc hpp hp hs e he with ⟨T', v, eT', wT, ev, hv, mv⟩ | ⟨x, ev⟩ | ev
      · rw [eT] at eT'; obtain rfl := Out.ret.inj eT'
        rw [ev, lift_ret]
        rcases opAssign_ok hc hpp hp ho (i := i) wT hv hs with ⟨h, h', h0⟩ | h | h
        · refine Or.inl ⟨_, h, ?_, h'⟩
          simp only [newValue, mval, mv]
          rw [if_neg]
          rintro ⟨g | g, z⟩
          · exact h0 g z
          · subst g; rcases ho with (g | g | g) | ⟨_, g⟩ <;> cases g
        · exact Or.inr (Or.inl h)
        · exact Or.inr (Or.inr h)
      · rw [ev]; exact Or.inr (Or.inl ⟨x, rfl⟩)
      · rw [ev]; exact Or.inr (Or.inr rfl)
    · rw [eT]; exact Or.inr (Or.inr rfl)
  | inc i =>
    rcases crement_ok hc hpp hp (o := .add) (Or.inl rfl) i hs with ⟨h, h'⟩ | h | h
    · exact Or.inl ⟨_, h, rfl, h'⟩
    · exact Or.inr (Or.inl h)
    · exact Or.inr (Or.inr h)
  | dec i =>
    rcases crement_ok hc hpp hp (o := .sub) (Or.inr rfl) i hs with ⟨h, h'⟩ | h | h
    · exact Or.inl ⟨_, h, rfl, h'⟩
    · exact Or.inr (Or.inl h)
    · exact Or.inr (Or.inr h)

/-- Any history of statements of any length, with exceptions caught after each: the program does not compile, or at the end
(hence after every prefix) all variables are in range. No step is undefined. -/
theorem C34_invariant {n : Nat} (c : Ctx n) (hc : GoodTypes c) (hpp : c.pp.Wf) (hp : c.p.ae = .throw)
    (l : List (Stmt n)) (hl : ∀ st ∈ l, SafeStmt (Covered c.pp) st) (s : Fin n → Int) (hs : InRange c s) :
    (∃ s', runAll c l s = .ret s' ∧ InRange c s') ∨ runAll c l s = .fault .illFormed := by
  induction l generalizing s with
  | nil => exact Or.inl ⟨s, rfl, hs⟩
  | cons st l ih =>
    have ih := ih (fun x hx => hl x (List.mem_cons_of_mem _ hx))
    simp only [runAll]
    rcases C34_step c hc hpp hp st (hl st List.mem_cons_self) s hs with ⟨w, h, _, hw⟩ | ⟨e, h⟩ | h
    · rw [h]; dsimp only
      refine ih _ fun j => ?_
      split
      · rename_i g; subst g; exact hw
      · exact hs j
    · rw [h]; exact ih s hs
    · rw [h]; exact Or.inr rfl

/-- A history is a sequence of steps: running two histories one after the other is running the first and then, from the store
it leaves (also when its last statement threw), the second. -/
theorem C34_append {n : Nat} (c : Ctx n) (l₁ l₂ : List (Stmt n)) (s : Fin n → Int) :
    runAll c (l₁ ++ l₂) s = runAll c l₁ s >>= runAll c l₂ := by
  induction l₁ generalizing s with
  | nil => rfl
  | cons st l ih =>
    simp only [List.cons_append, runAll]
    rcases st.exec c s with ⟨_ | _ | _, s'⟩
    · exact ih s'
    · exact ih s'
    · rfl

end
section
attribute [local instance] lp64

/-! ### Examples and refutations -/

/-- `x : safe_signed_range<-100,100>`, `y : safe<int>`; the expression `-(x * y) + 7`, and `y / x` -/
private def ctx2 : Ctx 2 := ⟨.native, strictException, fun i => if i = 0 then Opd.range i8 (-100) 100 else Opd.ofSafe i32⟩
private def ex1 : Expr 2 := .bin .add (.neg (.bin .mul (.var 0) (.var 1))) (.const i32 7)
-- `7 - 9` of two constants of type `int`
example : (Expr.bin .sub (.const i32 7) (.const i32 9) : Expr 2).eval ctx2 (fun _ => 0) = .ret (-2) :=
  (C35_const ctx2 _ .sub i32 i32 7 9 (by decide) (by decide) (by decide) (by decide) (by decide)).1
/-- the store with the values `x` and `y` -/
def st2 (x y : Int) : Fin 2 → Int := fun i => if i = 0 then x else y

example : GoodTypes ctx2 ∧ SafeExpr (Covered ctx2.pp) ex1 := by
  refine ⟨by unfold GoodTypes; decide, ⟨Or.inl (Or.inl rfl), ?_, ⟨by decide, by decide⟩, fun h => h.1⟩⟩
  exact ⟨⟨Or.inl (Or.inr (Or.inr rfl)), trivial, trivial, fun h => h.1⟩, fun h => h⟩
example : ex1.eval ctx2 (st2 100 12345) = .ret (-1234493) ∧ mval (st2 100 12345) ex1 = some (-1234493) := by decide +kernel
example : ex1.eval ctx2 (st2 100 2147483647) = .thrown .positive_overflow_error := by decide +kernel

/-- C35 trap policy with automatic promotion: `x * x - y` compiles for `int16_t` operands -/
private def ctx3 : Ctx 2 := ⟨.automatic, looseTrap, fun i => if i = 0 then Opd.range i8 (-100) 100 else Opd.ofSafe i16⟩
example : (Expr.bin .sub (.bin .mul (.var 0) (.var 0)) (.var 1)).eval ctx3 (st2 (-100) (-32768)) = .ret 42768 := by
  decide +kernel

/-- C34: a program in which some statements throw -/
example : (runAll ctx2 [.opAssign .add 0 (.const i32 90), .inc 0, .opAssign .mul 1 (.var 0), .opAssign .div 1 (.const i32 0),
    .assign 0 (.var 1), .opAssign .sub 0 (.const i32 150)] (st2 5 7)).bind (fun s => .ret (s 0, s 1)) =
    .ret (-54, 672) := by decide +kernel

/-- C36: decrementing `safe_unsigned_range<5,10>` (stored in 32 bits) at 5 throws, with the code of a positive overflow -/
example : preDec .native strictException (Opd.range u32 5 10) 5 = .thrown .positive_overflow_error ∧
    postInc .native strictException (Opd.range u32 5 10) 5 = .ret (5, 6) := by decide +kernel
/-- C36: automatic promotion of `safe<uint64_t>`: the upper half cannot be incremented because the intermediate type is
signed -/
example : preInc .automatic strictException (Opd.ofSafe u64) 9223372036854775808 = .thrown .positive_overflow_error := by
  decide +kernel

example : neg .native strictException (Opd.ofSafe i32) (-2147483648) = .thrown .positive_overflow_error ∧
    neg .automatic strictException (Opd.ofSafe i32) (-2147483648) = .ret 2147483648 ∧
    neg .native strictException (Opd.ofSafe u32) 5 = .thrown .negative_overflow_error := by decide +kernel

/-- `%=` on a variable whose range does not contain 0: the result type of `T % U` is computed as `T` itself, so that the
result is copied without a check: 70000 %= 70000 leaves 0 in a `safe_signed_range<20000,100000>` -/
theorem C39_mod_refuted :
    arithTy .native .mod (Opd.range i32 20000 100000) (Opd.range i32 70000 200000) = .ret (Opd.range i32 20000 100000) ∧
    compound .native strictException .mod (Opd.range i32 20000 100000) (Opd.range i32 70000 200000) 70000 70000 = .ret 0 ∧
    ¬ (Opd.range i32 20000 100000).Has 0 := by decide +kernel

/-- the same as a program: the range invariant is lost -/
theorem C34_mod_refuted :
    let c : Ctx 2 := ⟨.native, strictException, fun i => if i = 0 then Opd.range i32 20000 100000 else Opd.range i32 70000 200000⟩
    GoodTypes c ∧ InRange c (st2 70000 70000) ∧
    (runAll c [.opAssign .mod 0 (.var 1)] (st2 70000 70000)).bind (fun s => .ret (s 0)) = .ret 0 := by
  refine ⟨?_, ?_, by decide +kernel⟩
  · unfold GoodTypes; decide
  · unfold InRange; decide
end
end Verif.Props
