import Verif.SafeSpec
import Verif.Proofs.Promotion
import Verif.Proofs.SafeCmp

/-!
Property C82: the operators that commute in mathematics commute in the library: `a + b` and `b + a` have the same type and the same
outcome, likewise `*`, `&`, `|`, `^`, `==`, `!=`; `a < b` is `b > a`.
-/

namespace Verif.Props
open Spec
section
variable [Arch]

/-- The two outcomes agree; if both are exceptions they may carry different codes. -/
def Mirror {α : Type} (o o' : Out α) : Prop := o = o' ∨ ∃ e e', o = .thrown e ∧ o' = .thrown e'

instance {α : Type} [DecidableEq α] (o o' : Out α) : Decidable (Mirror o o') :=
  match o, o' with
  | .thrown e, .thrown e' => .isTrue (Or.inr ⟨e, e', rfl, rfl⟩)
  | .thrown _, .ret _ => .isFalse (by rintro (h | ⟨_, _, _, h⟩) <;> cases h)
  | .thrown _, .fault _ => .isFalse (by rintro (h | ⟨_, _, _, h⟩) <;> cases h)
  | .ret a, o' => if h : Out.ret a = o' then .isTrue (Or.inl h) else .isFalse (by rintro (h' | ⟨_, _, h', _⟩); exacts [h h', by cases h'])
  | .fault a, o' => if h : Out.fault a = o' then .isTrue (Or.inl h) else .isFalse (by rintro (h' | ⟨_, _, h', _⟩); exacts [h h', by cases h'])

/-! ### the operand conversions, in either order -/

omit [Arch] in
private theorem _root_.Verif.EP.Plain.cases {p : EP} (hm : p.Plain) (h1 : p.ae ≠ .trap) (h2 : p.ae ≠ .ignore) : ¬ p.ae ≠ .throw := by
  cases h : p.ae with
  | ignore => exact absurd h h2
  | trap => exact absurd h h1
  | throw => exact fun h' => h' rfl
  | user f => exact absurd h (hm f)

omit [Arch] in
private theorem swap {α : Type} {a b : Out Int} {k k' : Int → Int → Out α} (hk : ∀ x y, a = .ret x → b = .ret y → k x y = k' y x)
    (h : (∃ x, a = .ret x) ∨ (∃ y, b = .ret y) ∨ (∃ e e', a = .thrown e ∧ b = .thrown e') ∨ ∃ f, a = .fault f ∧ b = .fault f) :
    Mirror (a >>= fun x => b >>= k x) (b >>= fun y => a >>= k' y) := by
  rcases h with ⟨x, rfl⟩ | ⟨y, rfl⟩ | ⟨e, e', rfl, rfl⟩ | ⟨f, rfl, rfl⟩
  · cases b with
    | ret y => exact Or.inl (hk x y rfl rfl)
    | thrown e => exact Or.inl rfl
    | fault f => exact Or.inl rfl
  · cases a with
    | ret x => exact Or.inl (hk x y rfl rfl)
    | thrown e => exact Or.inl rfl
    | fault f => exact Or.inl rfl
  · exact Or.inr ⟨e, e', rfl, rfl⟩
  · exact Or.inl rfl

private theorem fallback_kind (p : EP) (hp : p.ae = .ignore ∨ ∃ f, p.ae = .user f) {R : ITy} {T : Opd} {t : Int} (hT : T.Wf) (ht : T.Has t)
    (hs : litOk R T = true) (hi : ¬ R.In t) :
    (∃ v, R.In v ∧ castFallback p R T t = .ret v) ∨ (p.ae ≠ .ignore ∧ ∃ e, castFallback p R T t = .thrown e) ∨
    castFallback p R T t = .fault .ub := by
  have hm := R.max_ge
  have hz := R.min_nonpos
  unfold castFallback
  rcases hk : T.kind with _ | _ | b <;> dsimp only
  · exact Or.inl ⟨_, conv_in R t, rfl⟩
  · have hB : (Opd.ofBuiltin T.base).Wf :=
      ⟨hT.1, T.base.in_min, T.base.in_max, T.base.min_le_max, fun _ => ⟨rfl, rfl⟩, fun _ h => by cases h⟩
    unfold toBuiltin
    rw [if_neg, validate_eq R.in_min R.in_max hB (hT.has_in ht), if_neg]
    · by_cases h1 : inclStatic R R.min R.max (Opd.ofBuiltin T.base) = true
      · have := inclStatic_sound R.in_min R.in_max h1
        have i := hT.has_in ht
        exact absurd ⟨le_trans this.1 i.1, le_trans i.2 this.2⟩ hi
      · rw [if_neg h1]
        rcases hp with hp | ⟨f, hp⟩ <;> rw [hp] <;> dsimp only <;> rw [if_neg (show ¬ (R.min ≤ t ∧ t ≤ R.max) from hi)]
        · exact Or.inr (Or.inr rfl)
        · split_ifs
          · exact Or.inr (Or.inr rfl)
          · exact Or.inr (Or.inl ⟨nofun, _, rfl⟩)
    · intro h
      have := exclStatic_sound R.in_min R.in_max h
      have := T.base.min_nonpos
      have h2 := T.base.max_ge
      have h3 : R.max < T.base.min ∨ T.base.max < R.min := by assumption
      omega
    · have i1 := conv_in R T.lo
      have i2 := conv_in R T.hi
      show ¬ ((T3.ofBool (cLt R R (conv R T.hi) R.min)).or (T3.ofBool (cLt R R R.max (conv R T.lo)))).toBool = true
      rw [cLt_eq (in_uac_self i2) (in_uac_self R.in_min), cLt_eq (in_uac_self R.in_max) (in_uac_self i1),
        decide_eq_false (by have := i2.1; omega), decide_eq_false (by have := i1.2; omega)]
      decide
  · have hl := litCheck_eq (R := R) hT
    rw [hs, if_pos rfl] at hl
    have hb : T.Has T.lo := ⟨le_refl _, hT.2.2.2.1⟩
    unfold litToBuiltin
    rw [hl, Out.ret_bind, validate_eq R.in_min R.in_max hT hb]
    have ne : ¬ exclStatic R R.min R.max T = true := by
      intro h
      unfold litCheck at hl
      rw [hk] at hl
      dsimp only at hl
      rw [castItv_eq hT, Out.ret_bind] at hl
      unfold exclStatic at h
      rw [if_pos h] at hl
      cases hl
    rw [if_neg ne]
    by_cases h1 : inclStatic R R.min R.max T = true
    · have := inclStatic_sound R.in_min R.in_max h1
      rw [if_pos h1]
      exact Or.inl ⟨_, ⟨this.1, le_trans hT.2.2.2.1 this.2⟩, rfl⟩
    · rw [if_neg h1]
      by_cases h2 : R.min ≤ T.lo ∧ T.lo ≤ R.max
      · rcases hp with hp | ⟨f, hp⟩ <;> rw [hp] <;> dsimp only <;> rw [if_pos h2] <;> exact Or.inl ⟨_, h2, rfl⟩
      · rcases hp with hp | ⟨f, hp⟩ <;> rw [hp] <;> dsimp only <;> rw [if_neg h2]
        · exact Or.inr (Or.inr rfl)
        · split_ifs
          · exact Or.inr (Or.inr rfl)
          · exact Or.inr (Or.inl ⟨nofun, _, rfl⟩)

private theorem castOne_kind (p : EP) {R : ITy} {T : Opd} {t : Int} (hT : T.Wf) (ht : T.Has t) (hs : litOk R T = true ∧ p.ae ≠ .trap) :
    (∃ v, R.In v ∧ castOne p R T t = .ret v) ∨ (p.ae ≠ .ignore ∧ ¬ R.In t ∧ ∃ e, castOne p R T t = .thrown e) ∨
    (p.ae ≠ .throw ∧ ¬ R.In t ∧ castOne p R T t = .fault .ub) := by
  by_cases hi : R.In t
  · left
    refine ⟨t, hi, ?_⟩
    unfold castOne
    rw [cast_full (hT.has_in ht), castTo_of_in hi]; rfl
  rcases hc : castTo R t with v | e
  · exact absurd (castTo_ok hc).2 hi
  have he : e ≠ .success := by
    intro he; have := castTo_arith hc; rw [he] at this; cases this
  have key : dispatchAndReturn p e = .ret (.err e) → castOne p R T t = castFallback p R T t := by
    intro hd
    unfold castOne
    rw [cast_full (hT.has_in ht), hc]
    show (dispatchAndReturn p e >>= _) = _
    rw [hd]
    simp [CR.exception, he]
  have fb : p.ae = .ignore ∨ (∃ f, p.ae = .user f) → dispatchAndReturn p e = .ret (.err e) → p.ae ≠ .throw →
      (∃ v, R.In v ∧ castOne p R T t = .ret v) ∨ (p.ae ≠ .ignore ∧ ¬ R.In t ∧ ∃ e, castOne p R T t = .thrown e) ∨
      (p.ae ≠ .throw ∧ ¬ R.In t ∧ castOne p R T t = .fault .ub) := by
    intro hp hd hn
    rw [key hd]
    rcases fallback_kind p hp hT ht hs.1 hi with h | h | h
    · exact Or.inl h
    · exact Or.inr (Or.inl ⟨h.1, hi, h.2⟩)
    · exact Or.inr (Or.inr ⟨hn, hi, h⟩)
  rcases hp : p.ae with _ | _ | _ | f
  · rw [hp] at fb
    exact fb (Or.inl rfl) (handler_ignore hp (castTo_arith hc)) nofun
  · exact absurd hp hs.2
  · right; left
    rw [castOne_throw hp hT ht, hc]
    exact ⟨nofun, hi, e, rfl⟩
  · have hd := handler_user hp (castTo_arith hc)
    by_cases hf : f.contains e = true
    · rw [if_pos hf] at hd
      rw [hp] at fb
      exact fb (Or.inr ⟨f, rfl⟩) hd nofun
    · rw [if_neg hf] at hd
      right; left
      refine ⟨nofun, hi, e, ?_⟩
      unfold castOne
      rw [cast_full (hT.has_in ht), hc]
      show (dispatchAndReturn p e >>= _) = _
      rw [hd]; rfl

private theorem kinds (p : EP) {R : ITy} {T U : Opd} {t u : Int} (hT : T.Wf) (hU : U.Wf) (ht : T.Has t) (hu : U.Has u)
    (lT : litOk R T = true) (lU : litOk R U = true) (hp : p.ae ≠ .trap) (hm : p.Plain) :
    (∃ x, castOne p R T t = .ret x) ∨ (∃ y, castOne p R U u = .ret y) ∨
    (∃ e e', castOne p R T t = .thrown e ∧ castOne p R U u = .thrown e') ∨
    ∃ f, castOne p R T t = .fault f ∧ castOne p R U u = .fault f := by
  rcases castOne_kind p hT ht ⟨lT, hp⟩ with ⟨v, _, h⟩ | ⟨h, _, e, he⟩ | ⟨h, _, he⟩
  · exact Or.inl ⟨v, h⟩
  · rcases castOne_kind p hU hu ⟨lU, hp⟩ with ⟨w, _, h'⟩ | ⟨_, _, e', he'⟩ | ⟨h', _, _⟩
    · exact Or.inr (Or.inl ⟨w, h'⟩)
    · exact Or.inr (Or.inr (Or.inl ⟨e, e', he, he'⟩))
    · exact absurd h' (hm.cases hp h)
  · rcases castOne_kind p hU hu ⟨lU, hp⟩ with ⟨w, _, h'⟩ | ⟨h', _, _⟩ | ⟨_, _, he'⟩
    · exact Or.inr (Or.inl ⟨w, h'⟩)
    · exact absurd h (hm.cases hp h')
    · exact Or.inr (Or.inr (Or.inr ⟨_, he, he'⟩))

/-- if only one of the operands can fail to fit, the two orders agree exactly -/
private theorem swap_eq {α : Type} {p : EP} {R : ITy} {T U : Opd} {t u : Int} (hT : T.Wf) (hU : U.Wf) (ht : T.Has t) (hu : U.Has u)
    {k k' : Int → Int → Out α} (hk : ∀ x y, castOne p R T t = .ret x → castOne p R U u = .ret y → k x y = k' y x)
    (h1 : R.In t ∨ R.In u) :
    (castOne p R T t >>= fun x => castOne p R U u >>= k x) = (castOne p R U u >>= fun y => castOne p R T t >>= k' y) := by
  have fit : ∀ {T : Opd} {t : Int}, T.Wf → T.Has t → R.In t → castOne p R T t = .ret t := by
    intro T t hT ht hi
    unfold castOne
    rw [cast_full (hT.has_in ht), castTo_of_in hi]; rfl
  rcases h1 with h | h
  · have e := fit hT ht h
    rw [e] at hk ⊢
    cases hb : castOne p R U u with
    | ret y => exact hk t y rfl hb
    | thrown e => rfl
    | fault f => rfl
  · have e := fit hU hu h
    rw [e] at hk ⊢
    cases hb : castOne p R T t with
    | ret x => exact hk x u hb rfl
    | thrown e => rfl
    | fault f => rfl

private theorem castOne_in {p : EP} {R : ITy} {T : Opd} {t x : Int} (hT : T.Wf) (ht : T.Has t) (hs : litOk R T = true ∧ p.ae ≠ .trap)
    (h : castOne p R T t = .ret x) : R.In x := by
  rcases castOne_kind p hT ht hs with ⟨v, i, e⟩ | ⟨_, _, e, he⟩ | ⟨_, _, he⟩
  · rw [h] at e; cases e; exact i
  · rw [h] at he; cases he
  · rw [h] at he; cases he

/-- the value computation, once the operands are converted, does not depend on their order -/
private structure Comm (op : ArithOp) (R : ITy) : Prop where
  itv : ∀ {T U : Opd}, T.Wf → U.Wf → resItv op.itv R T U = resItv op.itv R U T
  chk : ∀ (h : Handler) {a b : Int}, R.In a → R.In b → op.chk R h a b = op.chk R h b a
  prim : ∀ a b : Int, op.prim R R a b = op.prim R R b a
  ignored : ∀ a b : Int, op.ignored R R a b = op.ignored R R b a

private theorem checked_comm {op : ArithOp} {R : ITy} (hop : Comm op R) (p : EP) {T U : Opd} {t u : Int} (hT : T.Wf) (hU : U.Wf)
    (ht : T.Has t) (hu : U.Has u) :
    (p.Plain → Mirror (runChecked op p R T U t u) (runChecked op p R U T u t)) ∧
    (R.In t ∨ R.In u → runChecked op p R T U t u = runChecked op p R U T u t) := by
  have form : ∀ {T U : Opd} {t u : Int}, T.Wf → U.Wf → runChecked op p R T U t u =
      if (litOk R T = true ∧ litOk R U = true) ∧ p.ae ≠ .trap ∧ p.traps op.errs = false then
        (castOne p R T t >>= fun a => castOne p R U u >>= fun b => do
          let rx ← op.chk R (dispatchAndReturn p) a b
          if rx.exception then do
            let v ← op.ignored R R a b
            .ret (conv R v)
          else rx.value)
      else .fault .illFormed := by
    intro T U t u hT hU
    unfold runChecked castingHelper
    rw [castStatic_eq hT, castStatic_eq hU]
    by_cases a : litOk R T = true <;> by_cases b : litOk R U = true <;> by_cases c : p.ae = .trap <;>
      cases d : p.traps op.errs <;> simp [a, b, c]
    cases castOne p R T t <;> cases castOne p R U u <;> rfl
  have hk : litOk R T = true → litOk R U = true → p.ae ≠ .trap → ∀ x y, castOne p R T t = .ret x → castOne p R U u = .ret y → 
      (do let rx ← op.chk R (dispatchAndReturn p) x y
          if rx.exception then do
            let v ← op.ignored R R x y
            .ret (conv R v)
          else rx.value) =
      (do let rx ← op.chk R (dispatchAndReturn p) y x
          if rx.exception then do
            let v ← op.ignored R R y x
            .ret (conv R v)
          else rx.value) := by
    intro lT lU hp x y h1 h2
    rw [hop.chk _ (castOne_in hT ht ⟨lT, hp⟩ h1) (castOne_in hU hu ⟨lU, hp⟩ h2), hop.ignored x y]
  rw [form hT hU, form hU hT]
  by_cases g : (litOk R T = true ∧ litOk R U = true) ∧ p.ae ≠ .trap ∧ p.traps op.errs = false
  · rw [if_pos g, if_pos ⟨g.1.symm, g.2⟩]
    have hk := hk g.1.1 g.1.2 g.2.1
    exact ⟨fun hm => swap hk (kinds p hT hU ht hu g.1.1 g.1.2 g.2.1 hm), swap_eq hT hU ht hu hk⟩
  · rw [if_neg g, if_neg (fun h => g ⟨h.1.symm, h.2⟩)]
    exact ⟨fun _ => Or.inl rfl, fun _ => rfl⟩

private theorem plain_comm {op : ArithOp} {R : ITy} (hop : Comm op R) (t u : Int) : runPlain op R t u = runPlain op R u t := by
  unfold runPlain
  rw [hop.prim]

private theorem runOp_comm {op : ArithOp} {R : ITy} (hop : Comm op R) (p : EP) {T U : Opd} {t u : Int} (hT : T.Wf) (hU : U.Wf)
    (ht : T.Has t) (hu : U.Has u) :
    (p.Plain → Mirror (runOp op p R T U t u) (runOp op p R U T u t)) ∧
    (R.In t ∨ R.In u → runOp op p R T U t u = runOp op p R U T u t) := by
  unfold runOp
  rw [hop.itv hT hU]
  cases resItv op.itv R U T with
  | ret ri =>
    rw [Out.ret_bind, Out.ret_bind, plain_comm hop t u]
    split_ifs
    · exact checked_comm hop p hT hU ht hu
    · exact ⟨fun _ => Or.inl rfl, fun _ => rfl⟩
  | thrown e => exact ⟨fun _ => Or.inl rfl, fun _ => rfl⟩
  | fault f => exact ⟨fun _ => Or.inl rfl, fun _ => rfl⟩

/-! ### the operators -/

private theorem crAdd_comm {R : ITy} {c d : CR} (hc : Proper R c) (hd : Proper R d) : crAdd R c d = crAdd R d c := by
  cases c with
  | ok a =>
    cases d with
    | ok b => rw [crAdd_ok hc hd, crAdd_ok hd hc, Int.add_comm]
    | err e => cases e <;> rfl
  | err e =>
    cases d with
    | ok b => cases e <;> rfl
    | err e' => cases e <;> cases e' <;> rfl

private theorem mulTable_comm (a b : PFlag) : mulTable a b = mulTable b a := by cases a <;> cases b <;> rfl

private theorem crMul_comm {R : ITy} (hR : R.Ok) {c d : CR} (hc : Proper R c) (hd : Proper R d) : crMul R c d = crMul R d c := by
  rcases hc' : c with a | e
  · subst hc'
    rcases hd' : d with b | e
    · subst hd'; rw [crMul_ok hR hc hd, crMul_ok hR hd hc, Int.mul_comm]
    · subst hd'
      unfold crMul
      rw [mulTable_comm]
      cases h : mulTable (prodFlag R (.err e)) (prodFlag R (.ok a)) <;> try rfl
      all_goals exact absurd h (by cases e <;> cases prodFlag R (.ok a) <;> exact nofun)
  · unfold crMul
    rw [mulTable_comm]
    cases h : mulTable (prodFlag R d) (prodFlag R (.err e)) <;> try rfl
    all_goals exact absurd h (by cases e <;> cases prodFlag R d <;> exact nofun)

private theorem key_inj {R : ITy} {a b : CR} (ha : Proper R a) (hb : Proper R b) (va : ¬ Vague a) (vb : ¬ Vague b)
    (h : a.key R = b.key R) : a = b := by
  have hm := R.min_le_max
  rcases a.cases4 with ⟨x, rfl⟩ | rfl | rfl | hv
  · have := ha.1; have := ha.2
    rcases b.cases4 with ⟨y, rfl⟩ | rfl | rfl | hv
    · exact congrArg CR.ok h
    all_goals first | exact absurd hv vb | (simp only [CR.key] at h; omega)
  · rcases b.cases4 with ⟨y, rfl⟩ | rfl | rfl | hv
    · have := hb.1; simp only [CR.key] at h; omega
    all_goals first | rfl | exact absurd hv vb | (simp only [CR.key] at h; omega)
  · rcases b.cases4 with ⟨y, rfl⟩ | rfl | rfl | hv
    · have := hb.2; simp only [CR.key] at h; omega
    all_goals first | rfl | exact absurd hv vb | (simp only [CR.key] at h; omega)
  · exact absurd hv va

/-- the two middle corners may change places -/
private theorem minmax_swap {R : ITy} {a b c d : CR} (ha : Proper R a) (hb : Proper R b) (hc : Proper R c) (hd : Proper R d) :
    minmax (crLtB R) [a, b, c, d] = minmax (crLtB R) [a, c, b, d] := by
  have h1 : ∀ x ∈ [a, b, c, d], Proper R x := by simp [ha, hb, hc, hd]
  have h2 : ∀ x ∈ [a, c, b, d], Proper R x := by simp [ha, hb, hc, hd]
  obtain ⟨m, M, e, im, iM, h⟩ := minmax_cr a [b, c, d] h1
  obtain ⟨m', M', e', im', iM', h'⟩ := minmax_cr a [c, b, d] h2
  rw [e, e']
  rcases h with ⟨va, rfl, rfl⟩ | ⟨va, vm, vM, h⟩
  · rcases h' with ⟨_, rfl, rfl⟩ | ⟨va', _⟩
    · rfl
    · exact absurd va va'
  · rcases h' with ⟨va', _⟩ | ⟨_, vm', vM', h'⟩
    · exact absurd va' va
    · have perm : ∀ x, x ∈ [a, b, c, d] ↔ x ∈ [a, c, b, d] := by intro x; simp; tauto
      have k1 := h m' ((perm _).2 im') vm'
      have k2 := h M' ((perm _).2 iM') vM'
      have k3 := h' m ((perm _).1 im) vm
      have k4 := h' M ((perm _).1 iM) vM
      rw [key_inj (h1 m im) (h2 m' im') vm vm' (by omega), key_inj (h1 M iM) (h2 M' iM') vM vM' (by omega)]

private theorem comm_add (R : ITy) : Comm opAdd R where
  itv {T U} hT hU := by
    unfold resItv
    rw [castItv_eq hT, castItv_eq hU]
    show Out.static (itvAdd R _ _) = Out.static (itvAdd R _ _)
    unfold itvAdd
    rw [crAdd_comm castTo_proper castTo_proper, crAdd_comm (c := castTo R T.hi) castTo_proper castTo_proper]
  chk h a b ha hb := by
    show add R h a b = add R h b a
    rw [add_eq ha hb, add_eq hb ha, Int.add_comm]
  prim a b := by show cAdd R R a b = cAdd R R b a; unfold cAdd; simp only [Int.add_comm]
  ignored a b := by show cAdd R R a b = cAdd R R b a; unfold cAdd; simp only [Int.add_comm]

private theorem comm_mul {R : ITy} (hR : R.Ok) : Comm opMul R where
  itv {T U} hT hU := by
    unfold resItv
    rw [castItv_eq hT, castItv_eq hU]
    show Out.static (itvMul R _ _) = Out.static (itvMul R _ _)
    unfold itvMul corners minmax4
    have pr : ∀ x, Proper R (castTo R x) := fun x => castTo_proper
    obtain ⟨a, ea, pa, _⟩ := crMul_total hR (pr T.lo) (pr U.lo)
    obtain ⟨b, eb, pb, _⟩ := crMul_total hR (pr T.lo) (pr U.hi)
    obtain ⟨c, ec, pc, _⟩ := crMul_total hR (pr T.hi) (pr U.lo)
    obtain ⟨d, ed, pd, _⟩ := crMul_total hR (pr T.hi) (pr U.hi)
    dsimp only
    rw [crMul_comm hR (pr U.lo) (pr T.lo), crMul_comm hR (pr U.lo) (pr T.hi), crMul_comm hR (pr U.hi) (pr T.lo),
      crMul_comm hR (pr U.hi) (pr T.hi), ea, eb, ec, ed]
    simp only [Out.ret_bind]
    rw [minmax_swap pa pb pc pd]
  chk h a b ha hb := by
    show multiply R h a b = multiply R h b a
    rw [multiply_eq hR ha hb, multiply_eq hR hb ha, Int.mul_comm]
  prim a b := by show cMul R R a b = cMul R R b a; unfold cMul; simp only [Int.mul_comm]
  ignored a b := by show cMul R R a b = cMul R R b a; unfold cMul; simp only [Int.mul_comm]

/-! ### the promotion policies -/

/-- The emulation policy knows the width of one of the operands, or they have the same width. -/
def Ranked (pp : PP) (T U : Opd) : Prop :=
  match pp with
  | .cpp m => T.base.lg ∈ [m.c, m.s, m.i, m.l, m.ll] ∨ U.base.lg ∈ [m.c, m.s, m.i, m.l, m.ll] ∨ T.base.lg = U.base.lg
  | _ => True

instance (pp : PP) (T U : Opd) : Decidable (Ranked pp T U) := by unfold Ranked; split <;> infer_instance

omit [Arch] in
private theorem rank_inj {m : CppCfg} {j k : Nat} (h : cppRank m j = cppRank m k) (hj : cppRank m j ≠ 6 ∨ cppRank m k ≠ 6) : j = k := by
  unfold cppRank at *
  split_ifs at * <;> omega

omit [Arch] in
private theorem uac_ranked {m : CppCfg} {P Q : ITy} (h : cppRank m P.lg = cppRank m Q.lg → P.lg = Q.lg) :
    cppUac m P Q = cppUac m Q P := by
  by_cases e : P = Q
  · rw [e]
  have e' : ¬ Q = P := fun h => e h.symm
  unfold cppUac
  rw [if_neg e, if_neg e']
  by_cases hs : P.signed = Q.signed
  · rw [if_pos hs, if_pos hs.symm]
    unfold higherRanked
    split_ifs with h1 h2 h2
    · omega
    · rfl
    · rfl
    · have := h (by omega)
      cases P; cases Q; simp_all
  · rw [if_neg hs, if_neg (show ¬ Q.signed = P.signed from fun h => hs h.symm)]
    have e1 : selectSigned P Q = selectSigned Q P := by
      unfold selectSigned; rcases hp : P.signed with _ | _ <;> rcases hq : Q.signed with _ | _ <;> simp_all
    have e2 : selectUnsigned P Q = selectUnsigned Q P := by
      unfold selectUnsigned; rcases hp : P.signed with _ | _ <;> rcases hq : Q.signed with _ | _ <;> simp_all
    rw [e1, e2]

omit [Arch] in
private theorem promote_rank {m : CppCfg} {T : ITy} (h : cppRank m (cppPromote m T).lg = 6) : (cppPromote m T).lg = T.lg := by
  unfold cppPromote copySign higherRanked at *
  dsimp only at *
  split_ifs at h ⊢ with h1
  · rfl
  · exfalso
    dsimp only at h
    unfold cppRank at h
    split_ifs at h <;> omega

omit [Arch] in
private theorem cppResult_comm {m : CppCfg} {T U : Opd} (h : Ranked (.cpp m) T U) : cppResult m T.base U.base = cppResult m U.base T.base := by
  unfold cppResult
  apply uac_ranked
  intro e
  by_cases hj : cppRank m (cppPromote m T.base).lg = 6
  · have e1 := promote_rank hj
    have e2 := promote_rank (e ▸ hj)
    have r1 : cppRank m T.base.lg = 6 := e1 ▸ hj
    have r2 : cppRank m U.base.lg = 6 := e2 ▸ (e ▸ hj)
    have un : ∀ {k}, cppRank m k = 6 → ¬ k ∈ [m.c, m.s, m.i, m.l, m.ll] := by
      intro k hk
      simp only [List.mem_cons, List.not_mem_nil, or_false]
      unfold cppRank at hk
      split_ifs at hk <;> omega
    rcases h with h | h | h
    · exact absurd h (un r1)
    · exact absurd h (un r2)
    · rw [e1, e2, h]
  · exact rank_inj e (Or.inl hj)

private theorem autoTemp_comm (T U : Opd) : autoTemp T U = autoTemp U T := by
  unfold autoTemp
  rcases T.base.signed with _ | _ <;> rcases U.base.signed with _ | _ <;> rfl

private theorem unionItv_comm {B : ITy} {T U : Opd} (hn : B.signed = false → 0 ≤ T.lo ∧ 0 ≤ U.lo) (hT : T.lo ≤ T.hi) (hU : U.lo ≤ U.hi) :
    unionItv B ⟨castTo B T.lo, castTo B T.hi⟩ ⟨castTo B U.lo, castTo B U.hi⟩ =
    unionItv B ⟨castTo B U.lo, castTo B U.hi⟩ ⟨castTo B T.lo, castTo B T.hi⟩ := by
  have nv : ∀ x, (B.signed = false → 0 ≤ x) → ¬ Vague (castTo B x) := fun x h hv => by
    have := castTo_vague.1 hv; have := h this.1; omega
  have key : ∀ x y : Int, (B.signed = false → 0 ≤ x) → (B.signed = false → 0 ≤ y) →
      (crLt B (castTo B x) (castTo B y)).toBool = decide ((castTo B x).key B < (castTo B y).key B) :=
    fun x y hx hy => crLtB_key castTo_proper castTo_proper (nv x hx) (nv y hy)
  have inj : ∀ x y : Int, (B.signed = false → 0 ≤ x) → (B.signed = false → 0 ≤ y) → (castTo B x).key B = (castTo B y).key B →
      castTo B x = castTo B y := fun x y hx hy h => key_inj castTo_proper castTo_proper (nv x hx) (nv y hy) h
  have a1 : B.signed = false → 0 ≤ T.lo := fun h => (hn h).1
  have a2 : B.signed = false → 0 ≤ U.lo := fun h => (hn h).2
  have a3 : B.signed = false → 0 ≤ T.hi := fun h => by have := a1 h; omega
  have a4 : B.signed = false → 0 ≤ U.hi := fun h => by have := a2 h; omega
  unfold unionItv
  dsimp only
  rw [key _ _ a1 a2, key _ _ a2 a1, key _ _ a3 a4, key _ _ a4 a3]
  have i1 := inj _ _ a1 a2
  have i2 := inj _ _ a3 a4
  congr 1
  · by_cases h1 : (castTo B T.lo).key B < (castTo B U.lo).key B
    · rw [if_pos (by simpa using h1), if_neg (by simp; omega)]
    · by_cases h2 : (castTo B U.lo).key B < (castTo B T.lo).key B
      · rw [if_neg (by simpa using h1), if_pos (by simpa using h2)]
      · rw [if_neg (by simpa using h1), if_neg (by simpa using h2), i1 (by omega)]
  · by_cases h1 : (castTo B T.hi).key B < (castTo B U.hi).key B
    · rw [if_pos (by simpa using h1), if_neg (by simp; omega)]
    · by_cases h2 : (castTo B U.hi).key B < (castTo B T.hi).key B
      · rw [if_neg (by simpa using h1), if_pos (by simpa using h2)]
      · rw [if_neg (by simpa using h1), if_neg (by simpa using h2), i2 (by omega)]

/-- operators whose result type does not depend on the order of the operands -/
private def Sym (o : BinOp) : Prop := o = .add ∨ o = .mul ∨ o = .cmp ∨ o = .bor ∨ o = .band ∨ o = .bxor

private theorem result_comm {pp : PP} {o : BinOp} (ho : Sym o) {T U : Opd} (hT : T.Wf) (hU : U.Wf) (hr : Ranked pp T U) :
    pp.result o T U = pp.result o U T := by
  cases pp with
  | native => rcases ho with rfl | rfl | rfl | rfl | rfl | rfl <;> exact congrArg Out.ret (uac_comm _ _)
  | cpp m => exact cppResult_comm hr
  | automatic =>
    rcases ho with rfl | rfl | rfl | rfl | rfl | rfl
    · show (resItv itvAdd _ T U >>= _) = (resItv itvAdd _ U T >>= _)
      rw [autoTemp_comm, show resItv itvAdd _ T U = _ from (comm_add (autoTemp U T)).itv hT hU]; rfl
    · show (resItv itvMul _ T U >>= _) = (resItv itvMul _ U T >>= _)
      rw [autoTemp_comm, show resItv itvMul _ T U = _ from (comm_mul (autoTemp_ok U T)).itv hT hU]; rfl
    · show autoCmp T U = autoCmp U T
      unfold autoCmp
      rw [autoTemp_comm, castItv_eq hT, castItv_eq hU]
      simp only [Out.ret_bind]
      rw [unionItv_comm _ hT.2.2.2.1 hU.2.2.2.1]
      intro hs
      unfold autoTemp at hs
      split_ifs at hs with h
      · have t := hT.2.1.nonneg h.2
        have u := hU.2.1.nonneg h.1
        exact ⟨t, u⟩
      · cases hs
    all_goals exact congrArg Out.ret (uac_comm _ _)

/-- at most one operand does not fit in the usual arithmetic type -/
private theorem native_one {T U : Opd} (hT : T.Wf) (hU : U.Wf) {t u : Int} (ht : T.Has t) (hu : U.Has u) :
    (uac T.base U.base).In t ∨ (uac T.base U.base).In u := by
  by_cases h1 : 0 ≤ t
  · exact Or.inl (in_uac_left_nonneg h1 (hT.has_in ht))
  by_cases h2 : 0 ≤ u
  · rw [uac_comm]; exact Or.inr (in_uac_left_nonneg h2 (hU.has_in hu))
  · left
    exact in_uac_left_signed (neg_signed (hT.has_in ht) (by omega)).1 (neg_signed (hU.has_in hu) (by omega)).1 (hT.has_in ht)

/-- C82, `+` and `*`, the type: the same in both orders (under the emulation policy if it knows a width, see `Ranked`). -/
theorem C82_type_partial (pp : PP) (hpp : pp.Wf) (o : Arith) (ho : o = .add ∨ o = .mul) (T U : Opd) (hT : T.Wf) (hU : U.Wf)
    (hr : Ranked pp T U) : arithTy pp o T U = arithTy pp o U T := by
  unfold arithTy
  have hc : pp.result o.binOp T U = pp.result o.binOp U T :=
    result_comm (by rcases ho with rfl | rfl; exacts [Or.inl rfl, Or.inr (Or.inl rfl)]) hT hU hr
  rw [hc]
  rcases PP.result_total hpp (op := o.binOp) (by rcases ho with rfl | rfl <;> decide) hU hT with ⟨R, e, hR⟩ | e
  · rw [e, Out.ret_bind, Out.ret_bind]
    unfold resTy
    rcases ho with rfl | rfl
    · rw [show resItv Arith.add.itv R T U = resItv Arith.add.itv R U T from (comm_add R).itv hT hU]
    · rw [show resItv Arith.mul.itv R T U = resItv Arith.mul.itv R U T from (comm_mul hR).itv hT hU]
  · rw [e]; rfl

/-- C82, `+` and `*`, the outcome, under every exception policy: the same value, the same refusal to compile, the same undefined
behaviour; if one order throws so does the other. -/
theorem C82_outcome_partial (pp : PP) (hpp : pp.Wf) (p : EP) (hm : p.Plain) (o : Arith) (ho : o = .add ∨ o = .mul) (T U : Opd) (hT : T.Wf) (hU : U.Wf)
    (hr : Ranked pp T U) (t u : Int) (ht : T.Has t) (hu : U.Has u) : Mirror (arith pp p o T U t u) (arith pp p o U T u t) := by
  unfold arith
  have hc : pp.result o.binOp T U = pp.result o.binOp U T :=
    result_comm (by rcases ho with rfl | rfl; exacts [Or.inl rfl, Or.inr (Or.inl rfl)]) hT hU hr
  rw [hc]
  rcases PP.result_total hpp (op := o.binOp) (by rcases ho with rfl | rfl <;> decide) hU hT with ⟨R, e, hR⟩ | e
  · rw [e, Out.ret_bind, Out.ret_bind]
    rcases ho with rfl | rfl
    · exact (runOp_comm (comm_add R) p hT hU ht hu).1 hm
    · exact (runOp_comm (comm_mul hR) p hT hU ht hu).1 hm
  · rw [e]; exact Or.inl rfl

/-- C82: under native promotion the two orders agree in everything, the code of the exception included. -/
theorem C82_native (p : EP) (o : Arith) (ho : o = .add ∨ o = .mul) (T U : Opd) (hT : T.Wf) (hU : U.Wf) (t u : Int) (ht : T.Has t)
    (hu : U.Has u) : arith .native p o T U t u = arith .native p o U T u t := by
  have h1 := native_one hT hU ht hu
  have hR := uac_ok hT.1 hU.1
  rcases ho with rfl | rfl
  · show runOp opAdd p (uac T.base U.base) T U t u = runOp opAdd p (uac U.base T.base) U T u t
    rw [uac_comm U.base]
    exact (runOp_comm (comm_add _) p hT hU ht hu).2 h1
  · show runOp opMul p (uac T.base U.base) T U t u = runOp opMul p (uac U.base T.base) U T u t
    rw [uac_comm U.base]
    exact (runOp_comm (comm_mul hR) p hT hU ht hu).2 h1

/-- C82, `&`, `|`, `^`: the same type and value in both orders. -/
theorem C82_bitwise_partial (pp : PP) (o : Bitwise) (T U : Opd) (hT : T.Wf) (hU : U.Wf) (hr : Ranked pp T U) (t u : Int) :
    bitwiseTy pp o T U = bitwiseTy pp o U T ∧ bitwise pp o T U t u = bitwise pp o U T u t := by
  have hc : pp.result o.binOp T U = pp.result o.binOp U T :=
    result_comm (by unfold Sym; cases o <;> simp [Bitwise.binOp]) hT hU hr
  have hp : ∀ a b, Bitwise.pick o a b = Bitwise.pick o b a := by
    intro a b
    cases o <;> simp only [Bitwise.pick, pickMin, pickMax] <;> split_ifs <;> omega
  have hb : ∀ R, bitTy o.pick R T U = bitTy o.pick R U T := by intro R; unfold bitTy; dsimp only; rw [hp]
  unfold bitwiseTy bitwise
  rw [hc]
  cases pp.result o.binOp U T with
  | ret R =>
    simp only [Out.ret_bind]
    refine ⟨hb R, ?_⟩
    cases o
    · show (bitTy pickMax R T U >>= _) = (bitTy pickMax R U T >>= _)
      rw [show bitTy pickMax R T U = _ from hb R]
      unfold cOr
      simp only [BitVec.or_comm]; rfl
    · show (bitTy pickMin R T U >>= _) = (bitTy pickMin R U T >>= _)
      rw [show bitTy pickMin R T U = _ from hb R]
      unfold cAnd
      simp only [BitVec.and_comm]; rfl
    · show (bitTy pickMax R T U >>= _) = (bitTy pickMax R U T >>= _)
      rw [show bitTy pickMax R T U = _ from hb R]
      unfold cXor
      simp only [BitVec.xor_comm]; rfl
  | thrown e => exact ⟨rfl, rfl⟩
  | fault f => exact ⟨rfl, rfl⟩

private theorem cmp_forms {p : EP} {R : ITy} {T U : Opd} {t u : Int} (hT : T.Wf) (hU : U.Wf) {f : Int → Int → Bool} :
    (do castStatic p R T; castStatic p R U; let r ← castingHelper p R T U t u; Out.ret (f r.1 r.2)) =
      if (litOk R T = true ∧ litOk R U = true) ∧ p.ae ≠ .trap then
        (castOne p R T t >>= fun a => castOne p R U u >>= fun b => .ret (f a b))
      else .fault .illFormed := by
  unfold castingHelper
  rw [castStatic_eq hT, castStatic_eq hU]
  by_cases a : litOk R T = true <;> by_cases b : litOk R U = true <;> by_cases c : p.ae = .trap <;> simp [a, b, c]
  cases castOne p R T t <;> cases castOne p R U u <;> rfl

private theorem runEq_comm (p : EP) {R : ITy} {T U : Opd} {t u : Int} (hT : T.Wf) (hU : U.Wf) (ht : T.Has t) (hu : U.Has u) :
    (p.Plain → Mirror (runEq p R T U t u) (runEq p R U T u t)) ∧ (R.In t ∨ R.In u → runEq p R T U t u = runEq p R U T u t) := by
  unfold runEq
  rw [castItv_eq hT, castItv_eq hU]
  simp only [Out.ret_bind]
  rw [intersect_not hT.2.2.2.1 hU.2.2.2.1, intersect_not hU.2.2.2.1 hT.2.2.2.1]
  simp only [Bool.false_eq_true, if_false]
  rw [cmp_forms hT hU, cmp_forms hU hT, Bool.or_comm (itvOpen ⟨castTo R U.lo, _⟩)]
  by_cases h1 : (itvOpen ⟨castTo R T.lo, castTo R T.hi⟩ || itvOpen ⟨castTo R U.lo, castTo R U.hi⟩) = true
  · rw [if_pos h1, if_pos h1]
    by_cases g : (litOk R T = true ∧ litOk R U = true) ∧ p.ae ≠ .trap
    · rw [if_pos g, if_pos ⟨g.1.symm, g.2⟩]
      have hk : ∀ x y, castOne p R T t = .ret x → castOne p R U u = .ret y →
          Out.ret (SafeCompare.equal R R x y) = .ret (SafeCompare.equal R R y x) := by
        intro x y h1 h2
        rw [SafeCompare.equal_eq (castOne_in hT ht ⟨g.1.1, g.2⟩ h1) (castOne_in hU hu ⟨g.1.2, g.2⟩ h2),
          SafeCompare.equal_eq (castOne_in hU hu ⟨g.1.2, g.2⟩ h2) (castOne_in hT ht ⟨g.1.1, g.2⟩ h1)]
        simp only [eq_comm]
      exact ⟨fun hm => swap hk (kinds p hT hU ht hu g.1.1 g.1.2 g.2 hm), swap_eq hT hU ht hu hk⟩
    · rw [if_neg g, if_neg (fun h => g ⟨h.1.symm, h.2⟩)]
      exact ⟨fun _ => Or.inl rfl, fun _ => rfl⟩
  · rw [if_neg h1, if_neg h1, cEq_eq (in_uac_self (conv_in R t)) (in_uac_self (conv_in R u)),
      cEq_eq (in_uac_self (conv_in R u)) (in_uac_self (conv_in R t))]
    have : decide (conv R t = conv R u) = decide (conv R u = conv R t) := by simp only [eq_comm]
    rw [this]
    exact ⟨fun _ => Or.inl rfl, fun _ => rfl⟩

/-- C82, `==` and `!=`: the same in both orders, as for `+`. -/
theorem C82_equal_partial (pp : PP) (hpp : pp.Wf) (p : EP) (hm : p.Plain) (o : Rel) (ho : o = .eq ∨ o = .ne) (T U : Opd) (hT : T.Wf) (hU : U.Wf)
    (hr : Ranked pp T U) (t u : Int) (ht : T.Has t) (hu : U.Has u) : Mirror (compare pp p o T U t u) (compare pp p o U T u t) := by
  have hc : pp.result .cmp T U = pp.result .cmp U T := result_comm (Or.inr (Or.inr (Or.inl rfl))) hT hU hr
  unfold compare
  rcases PP.result_total hpp (op := .cmp) (by decide) hU hT with ⟨R, e, hR⟩ | e
  · have k := (runEq_comm p (R := R) hT hU ht hu).1 hm
    rcases ho with rfl | rfl <;> dsimp only <;> rw [hc, e, Out.ret_bind, Out.ret_bind]
    · exact k
    · unfold runNe
      rcases k with k | ⟨_, _, k1, k2⟩
      · rw [k]; exact Or.inl rfl
      · rw [k1, k2]; exact Or.inr ⟨_, _, rfl, rfl⟩
  · rcases ho with rfl | rfl <;> dsimp only <;> rw [hc, e] <;> exact Or.inl rfl

/-- C82, the orders: `a < b` is `b > a`, `a <= b` is `b >= a`, in every respect. -/
theorem C82_order (pp : PP) (p : EP) (T U : Opd) (t u : Int) :
    compare pp p .lt T U t u = compare pp p .gt U T u t ∧ compare pp p .le T U t u = compare pp p .ge U T u t :=
  ⟨rfl, rfl⟩

/-- C82: native comparisons agree in everything. -/
theorem C82_native_equal (p : EP) (o : Rel) (ho : o = .eq ∨ o = .ne) (T U : Opd) (hT : T.Wf) (hU : U.Wf) (t u : Int) (ht : T.Has t)
    (hu : U.Has u) : compare .native p o T U t u = compare .native p o U T u t := by
  have h1 := native_one hT hU ht hu
  have k := (runEq_comm p hT hU ht hu).2 h1
  rcases ho with rfl | rfl
  · show runEq p (uac T.base U.base) T U t u = runEq p (uac U.base T.base) U T u t
    rw [uac_comm U.base, k]
  · show runNe p (uac T.base U.base) T U t u = runNe p (uac U.base T.base) U T u t
    unfold runNe
    rw [uac_comm U.base, k]

end

section
attribute [local instance] lp64

/-- C82 fails under the emulation policy for two widths it does not know: with all its types 8 bits wide, the sum of a 16-bit and a
32-bit operand has the type of the left one. So 1 + 100000 throws, 100000 + 1 does not. -/
theorem C82_refuted :
    arithTy (.cpp ⟨0, 0, 0, 0, 0⟩) .add (Opd.ofSafe i16) (Opd.ofSafe i32) = .ret (Opd.ofSafe i16) ∧
    arithTy (.cpp ⟨0, 0, 0, 0, 0⟩) .add (Opd.ofSafe i32) (Opd.ofSafe i16) = .ret (Opd.ofSafe i32) ∧
    arith (.cpp ⟨0, 0, 0, 0, 0⟩) defaultException .add (Opd.ofSafe i16) (Opd.ofSafe i32) 1 100000 = .thrown .positive_overflow_error ∧
    arith (.cpp ⟨0, 0, 0, 0, 0⟩) defaultException .add (Opd.ofSafe i32) (Opd.ofSafe i16) 100000 1 = .ret 100001 := by decide +kernel

/-- The codes may differ where neither operand fits in the result type: the sum of 200 and -200 under automatic promotion (both known at
compile time) is computed in 8 bits, and the exception tells of the operand that is converted first. -/
theorem C82_code_refuted :
    arith .automatic defaultException .add (Opd.range i16 200 200) (Opd.range i16 (-200) (-200)) 200 (-200) =
      .thrown .positive_overflow_error ∧
    arith .automatic defaultException .add (Opd.range i16 (-200) (-200)) (Opd.range i16 200 200) (-200) 200 =
      .thrown .negative_overflow_error := by decide +kernel

/-- With a handler of the user that throws for some codes and returns for others even the kind of outcome depends on the order: the
conversion that is tried first decides. Hence the hypothesis `Plain`. -/
theorem C82_user_refuted :
    arith .automatic ⟨.user [.negative_overflow_error], .throw, .throw, .throw⟩ .add (Opd.range i16 200 200) (Opd.range i16 (-200) (-200))
      200 (-200) = .thrown .positive_overflow_error ∧
    arith .automatic ⟨.user [.negative_overflow_error], .throw, .throw, .throw⟩ .add (Opd.range i16 (-200) (-200)) (Opd.range i16 200 200)
      (-200) 200 = .fault .ub := by decide +kernel

/- the hypotheses can be met -/
example : (Opd.ofSafe u8).Wf ∧ (Opd.range i32 (-5) 70000).Wf ∧ Ranked (.cpp ⟨0, 1, 1, 2, 3⟩) (Opd.ofSafe u8) (Opd.range i32 (-5) 70000) ∧
    arith (.cpp ⟨0, 1, 1, 2, 3⟩) defaultException .add (Opd.ofSafe u8) (Opd.range i32 (-5) 70000) 250 70000 = .ret 70250 ∧
    arith (.cpp ⟨0, 1, 1, 2, 3⟩) defaultException .add (Opd.range i32 (-5) 70000) (Opd.ofSafe u8) 70000 250 = .ret 70250 := by
  decide +kernel
example : arith .native defaultException .mul (Opd.ofSafe i32) (Opd.ofSafe u32) (-1) 7 = .thrown .domain_error ∧
    arith .native defaultException .mul (Opd.ofSafe u32) (Opd.ofSafe i32) 7 (-1) = .thrown .domain_error := by decide +kernel
example : compare .automatic defaultException .eq (Opd.ofSafe i8) (Opd.ofSafe u64) (-1) 7 =
    compare .automatic defaultException .eq (Opd.ofSafe u64) (Opd.ofSafe i8) 7 (-1) := by decide +kernel
example : bitwise .native .bxor (Opd.ofSafe u8) (Opd.ofSafe u16) 255 256 = .ret 511 ∧
    bitwise .native .bxor (Opd.ofSafe u16) (Opd.ofSafe u8) 256 255 = .ret 511 := by decide +kernel
end
end Verif.Props
