import Verif.LangSpec
import Verif.Proofs.Bool
import Verif.Props.SafeDiv
import Verif.Props.Types
import Verif.Props.Program
import Verif.Props.BitExact
import Verif.Props.Shift
import Verif.Props.Stream
import Verif.Props.Lit
import Verif.Props.Safe2
import Verif.Props.Trap

/-!
Lemmas for Props/Lang: types are determined at compile time; outcomes of operators, conversions and expressions.
-/

namespace Verif.Lang
open Spec Props

theorem ret_bind {α β : Type} (a : α) (f : α → Out β) : (Out.ret a >>= f) = f a := rfl

/-- a compile time computation: a result or a rejection -/
def Static {α : Type} (x : Out α) : Prop := (∃ a, x = .ret a) ∨ x = .fault .illFormed

theorem Static.ret {α : Type} (a : α) : Static (.ret a) := Or.inl ⟨a, rfl⟩
theorem Static.ill {α : Type} : Static (.fault .illFormed : Out α) := Or.inr rfl

theorem Static.static {α : Type} (x : Out α) : Static x.static := by
  cases x
  · exact Or.inl ⟨_, rfl⟩
  · exact Or.inr rfl
  · exact Or.inr rfl

theorem Static.bind {α β : Type} {x : Out α} {f : α → Out β} (hx : Static x) (hf : ∀ a, Static (f a)) : Static (x >>= f) := by
  rcases hx with ⟨a, rfl⟩ | rfl
  · exact hf a
  · exact Or.inr rfl

theorem Static.ite {α : Type} {c : Prop} [Decidable c] {x y : Out α} (hx : Static x) (hy : Static y) :
    Static (if c then x else y) := by split <;> assumption

section
variable [Arch]

theorem castItv_st (R : ITy) (T : Opd) : Static (castItv R T) := Static.static _
theorem resItv_st (f : ITy → Itv CR → Itv CR → Out (Itv CR)) (R : ITy) (T U : Opd) : Static (resItv f R T U) := Static.static _

theorem autoEnds_st (B : ITy) (i : Itv CR) : Static (autoEnds B i) := by
  unfold autoEnds autoStored
  split <;> exact Static.static _

theorem result_st (pp : PP) (op : BinOp) (T U : Opd) : Static (pp.result op T U) := by
  cases pp with
  | native => exact .ret _
  | automatic =>
    cases op
    case bor => exact .ret _
    case band => exact .ret _
    case bxor => exact .ret _
    case cmp => exact .bind (castItv_st _ _) fun _ => .bind (castItv_st _ _) fun _ => autoEnds_st _ _
    case shr => exact .bind (castItv_st _ _) fun _ => .bind (castItv_st _ _) fun _ => .bind (Static.static _) fun _ => autoEnds_st _ _
    all_goals exact .bind (resItv_st _ _ _ _) fun _ => autoEnds_st _ _
  | cpp m =>
    show Static (cppUac m _ _)
    unfold cppUac
    split_ifs <;> first | exact .ret _ | exact .ill

theorem resTy_st (f : ITy → Itv CR → Itv CR → Out (Itv CR)) (R : ITy) (T U : Opd) : Static (resTy f R T U) :=
  .bind (resItv_st _ _ _ _) fun _ => .ret _

theorem bitTy_st (k : Int → Int → Int) (R : ITy) (T U : Opd) : Static (bitTy k R T U) := by
  exact .bind (Static.static _) fun _ => .ite (.ret _) .ill

theorem safeTy_st (pp : PP) (o : Op2) (T U : Opd) : Static (o.safeTy pp T U) := by
  cases o
  · exact .bind (result_st _ _ _ _) fun _ => resTy_st _ _ _ _
  · exact .bind (result_st _ _ _ _) fun _ => bitTy_st _ _ _ _
  · exact .bind (result_st _ _ _ _) fun _ => resTy_st _ _ _ _
  · exact .bind (result_st _ _ _ _) fun _ => resTy_st _ _ _ _

omit [Arch] in
theorem common_st {α : Type} [DecidableEq α] (t u : Option α) : Static (common t u) := by
  cases t <;> cases u <;> simp [common, Static]
  rename_i a b
  by_cases h : a = b <;> simp [h]

theorem pBinTy_st {N : Names} (o : Op2) (T U : PTy N) : Static (pBinTy o T U) := by
  unfold pBinTy
  exact .ite (.bind (common_st _ _) fun _ => .bind (common_st _ _) fun _ => .bind (safeTy_st _ _ _ _) fun _ => .ret _) (.ret _)

theorem negTyOf_st {N : Names} (T : PTy N) : Static (negTyOf T) := by
  unfold negTyOf
  split
  · exact .ret _
  · exact pBinTy_st _ _ _
  · exact .bind (Static.static _) fun _ => .ret _

theorem ty_st {N : Names} {n : Nat} (Γ : Fin n → PTy N) : ∀ e : LExpr N n, Static (e.ty Γ)
  | .var _ => .ret _
  | .const _ _ => .ret _
  | .lit _ => .ret _
  | .bin _ a b => .bind (ty_st Γ a) fun _ => .bind (ty_st Γ b) fun _ => pBinTy_st _ _ _
  | .neg a => .bind (ty_st Γ a) fun _ => negTyOf_st _
  | .pos a => .bind (ty_st Γ a) fun _ => .ret _
  | .cast _ _ => .ret _

/-! ### operators -/

/-- exact with a type that has the value, or an exception, or rejected -/
def Good (ty : Out Opd) (val : Out Int) (m : Option Int) : Prop :=
  (∃ S v, ty = .ret S ∧ S.Wf ∧ S.kind = .safe ∧ val = .ret v ∧ S.Has v ∧ m = some v) ∨
  (∃ e, val = .thrown e) ∨ val = .fault .illFormed

theorem good_of {ty : Out Opd} {val : Out Int} {m : Option Int} {v : Int} (h : ExactOrThrows val v)
    (hm : val = .ret v → m = some v)
    (ht : val = .ret v → ∃ S, ty = .ret S ∧ S.Wf ∧ S.kind = .safe ∧ S.Has v) : Good ty val m := by
  rcases h with h | h | h
  · obtain ⟨S, h1, h2, h3, h4⟩ := ht h
    exact Or.inl ⟨S, v, h1, h2, h3, h, h4, hm h⟩
  · exact Or.inr (Or.inl h)
  · exact Or.inr (Or.inr h)

omit [Arch] in
theorem bit_testBit (x : Int) (i : Nat) : bit x i = x.testBit i := by
  rcases x with m | m
  · exact bit_natCast m i
  · have e : (Int.negSucc m) = -(m : Int) - 1 := by omega
    rw [e, bit_not, bit_natCast, ← e]; rfl

omit [Arch] in
theorem logic_int {o : Bitwise} {t u v : Int}
    (h : ∀ i, bit v i = logic o (bit t i) (bit u i)) : imath (.bit o) t u = some v := by
  cases o <;> simp only [imath] <;> congr 1 <;> apply bit_ext <;> intro i <;>
    rw [h i, bit_testBit, bit_testBit, bit_testBit] <;> simp [logic, Int.testBit_lor, Int.testBit_land, Int.testBit_lxor]

/-- the covered bitwise operators are right -/
theorem bit_covered {pp : PP} {b : Bitwise} {T U : Opd} {R : ITy} (hT : T.Wf) (hU : U.Wf) (e : pp.result b.binOp T U = .ret R)
    (h : R.Ok ∧ (PlainBits R T U ∨ (b = .band ∧ Masked pp R T U))) {t u : Int} (ht : T.Has t) (hu : U.Has u) :
    ∃ v S, bitwise pp b T U t u = .ret v ∧ bitwiseTy pp b T U = .ret S ∧ S.Wf ∧ S.kind = .safe ∧ S.Has v ∧
      ∀ i, bit v i = logic b (bit t i) (bit u i) := by
  obtain ⟨hR, ⟨z1, z2, f1, f2⟩ | ⟨rfl, ⟨i1, i2, i3, i4⟩, hm⟩⟩ := h
  · exact C27_bounds_partial pp b T U R hR e z1 z2 f1 f2 t u ht hu
  · exact C27_mask_partial pp T U hT.2.2.2.1 hU.2.2.2.1 R hR e ⟨i1, i2⟩ ⟨i3, i4⟩ hm t u ht hu

/-- their operands are values of the result type -/
theorem bit_covered_in {pp : PP} {b : Bitwise} {T U : Opd} {R : ITy}
    (h : PlainBits R T U ∨ (b = .band ∧ Masked pp R T U)) {t u : Int} (ht : T.Has t) (hu : U.Has u) : R.In t ∧ R.In u := by
  have t1 := ht.1; have t2 := ht.2; have u1 := hu.1; have u2 := hu.2; have hz := R.min_nonpos
  rcases h with ⟨z1, z2, f1, f2⟩ | ⟨rfl, ⟨⟨i1, _⟩, ⟨_, i2⟩, ⟨i3, _⟩, ⟨_, i4⟩⟩, _⟩
  · exact ⟨⟨by omega, by omega⟩, ⟨by omega, by omega⟩⟩
  · exact ⟨⟨by omega, by omega⟩, ⟨by omega, by omega⟩⟩

theorem mod_type {pp : PP} {T U : Opd} {R : ITy} (e : pp.result .mod T U = .ret R) (hT : T.Wf) (hU : U.Wf) :
    ∃ S, arithTy pp .mod T U = .ret S ∧ S.kind = .safe := by
  obtain ⟨ri, g, _⟩ := modItv_total (R := R) (t := ⟨castTo _ T.lo, castTo _ T.hi⟩)
    (u := ⟨castTo _ U.lo, castTo _ U.hi⟩) castTo_proper castTo_proper castTo_proper castTo_proper
  have g := resItv_of (f := modItv) hT hU g
  unfold arithTy
  rw [show Arith.mod.binOp = .mod from rfl, e, ret_bind]
  unfold resTy
  rw [show Arith.itv .mod = modItv from rfl, g]
  exact ⟨_, rfl, rfl⟩

theorem div_type {pp : PP} {T U : Opd} {R : ITy} (e : pp.result .div T U = .ret R) (hT : T.Wf) (hU : U.Wf) :
    ∃ S, arithTy pp .div T U = .ret S ∧ S.kind = .safe := by
  obtain ⟨ri, g, _⟩ := divItv_total (R := R) (t := ⟨castTo _ T.lo, castTo _ T.hi⟩)
    (u := ⟨castTo _ U.lo, castTo _ U.hi⟩) castTo_proper castTo_proper castTo_proper castTo_proper
  have g := resItv_of (f := divItv) hT hU g
  unfold arithTy
  rw [show Arith.div.binOp = .div from rfl, e, ret_bind]
  unfold resTy
  rw [show Arith.itv .div = divItv from rfl, g]
  exact ⟨_, rfl, rfl⟩

/-- native promotion always meets the condition on quotients -/
theorem native_div_covered {p : EP} {T U : Opd} (hT : T.Wf) (hU : U.Wf) : OpCovered .native p T U (.ar .div) := by
  intro R h
  cases h
  exact ⟨(native_fits hT hU).1, (native_fits hT hU).2, Or.inl ⟨uac_digits_left _ _, uac_digits_right _ _⟩⟩

/-- and the first condition on remainders -/
theorem native_mod_wide {T U : Opd} {R : ITy} (h : PP.native.result .mod T U = .ret R) : Wide R T U := by
  cases h
  exact ⟨uac_digits_left _ _, uac_digits_right _ _⟩

theorem op_throw {pp : PP} (hpp : pp.Wf) {p : EP} (hp : p.ae = .throw) {o : Op2} {T U : Opd} (hT : T.Wf) (hU : U.Wf)
    (hc : OpCovered pp p T U o) {t u : Int} (ht : T.Has t) (hu : U.Has u) :
    Good (o.safeTy pp T U) (o.safeVal pp p T U t u) (imath o t u) := by
  have lin : ∀ a : Arith, (a = .add ∨ a = .sub ∨ a = .mul) → (imath (.ar a) t u = some (math a t u)) →
      Good (arithTy pp a T U) (arith pp p a T U t u) (imath (.ar a) t u) := fun a ha hi =>
    good_of (C23_exact pp hpp p hp a ha T U hT hU t u ht hu) (fun _ => hi)
      (fun h => C29_arith pp hpp p (Or.inl hp) a ha T U hT hU t u _ ht hu h)
  cases o with
  | ar a =>
    cases a with
    | add => exact lin _ (by simp) rfl
    | sub => exact lin _ (by simp) rfl
    | mul => exact lin _ (by simp) rfl
    | div =>
      rcases PP.result_total hpp (op := .div) (by decide) hT hU with ⟨R, e, hR⟩ | e
      · obtain ⟨f1, f2, hw⟩ := hc R e
        obtain ⟨h1, h2⟩ := C24_policy_partial pp p hp T U hT hU R hR e (Or.inr f2) hw t u ht hu
        refine good_of h1 (fun h => ?_) (fun h => C29_div_policy_partial pp p hp T U hT hU R hR e f1 f2 hw t u _ ht hu h)
        have h0 : u ≠ 0 := fun h0 => h2 h0 _ h
        simp [imath, h0]
      · right; right
        show arith pp p .div T U t u = _
        unfold arith
        rw [show Arith.div.binOp = .div from rfl, e]; rfl
    | mod =>
      obtain ⟨hR', hS⟩ := hc
      rcases PP.result_total hpp (op := .mod) (by decide) hT hU with ⟨R, e, hR⟩ | e
      · obtain ⟨hw, hm⟩ := hR' R e
        obtain ⟨h1, h2⟩ := C25_policy_partial pp p hp T U hT hU R hR e hw t u ht hu
          (fun hs hmin => absurd (hmin ▸ ht) (hm hs))
        refine good_of h1 (fun h => ?_) (fun h => ?_)
        · have h0 : u ≠ 0 := fun h0 => h2 h0 _ h
          simp [imath, h0]
        · have h0 : u ≠ 0 := fun h0 => h2 h0 _ h
          obtain ⟨S, e', k⟩ := mod_type e hT hU
          exact ⟨S, e', (hS S e').1, k, (hS S e').2 t u ht hu h0⟩
      · right; right
        show arith pp p .mod T U t u = _
        unfold arith
        rw [show Arith.mod.binOp = .mod from rfl, e]; rfl
  | bit b =>
    rcases result_st pp b.binOp T U with ⟨R, e⟩ | e
    · obtain ⟨v, S, h1, h2, h3, h4, h5, h6⟩ := bit_covered hT hU e (hc R e) ht hu
      exact Or.inl ⟨S, v, h2, h3, h4, h1, h5, logic_int h6⟩
    · right; right
      show bitwise pp b T U t u = _
      unfold bitwise; rw [e]; rfl
  | shl =>
    obtain ⟨hi, hc⟩ := hc
    rcases shl_policy hpp hp hT hU hi with hq | hq
    swap
    · exact Or.inr (Or.inr (hq t u))
    show Good _ (shl pp p T U t u) _
    rw [hq t u ht hu]
    have hi' : p.strictShift.idb = .throw := rfl
    have hp' : p.strictShift.ae = .throw := hp
    obtain ⟨h1, h2⟩ := C26_shl_partial pp hpp p.strictShift hp' hi' T U hT hU hc t u ht hu
    refine good_of h1 (fun h => ?_) (fun h => C49_shl_bounds pp hpp p.strictShift hp' hi' T U hT hU hc t u _ ht hu h)
    have : 0 ≤ u := by
      by_contra hn
      rcases h2 (by omega) with ⟨e, g⟩ | g <;>
      · change shl pp p.strictShift T U t u = _ at h
        rw [g] at h; cases h
    simp [imath, this]
  | shr =>
    obtain ⟨hi, hc⟩ := hc
    rcases shr_policy hpp hp hT hU hi with hq | hq
    swap
    · exact Or.inr (Or.inr (hq t u))
    show Good _ (shr pp p T U t u) _
    rw [hq t u ht hu]
    have hi' : p.strictShift.idb = .throw := rfl
    have hp' : p.strictShift.ae = .throw := hp
    have hc' : ∀ R, pp.result .shr T U = .ret R → ShrCovered R T U ∧ ¬ FullWidth R u := fun R h => ⟨(hc R h).1, (hc R h).2 u hu⟩
    obtain ⟨h1, h2⟩ := C26_shr_partial pp hpp p.strictShift hp' hi' T U hT hU t u hc' ht hu
    refine good_of h1 (fun h => ?_) (fun h => C49_shr_bounds_partial pp hpp p.strictShift hp' hi' T U hT hU t u _ hc' ht hu h)
    have : ¬ (u < 0 ∨ t < 0) := by
      intro hn
      rcases h2 hn with ⟨e, g⟩ | g <;>
      · change shr pp p.strictShift T U t u = _ at h
        rw [g] at h; cases h
    have h3 : 0 ≤ u ∧ 0 ≤ t := by omega
    simp [imath, h3]

/-- rejected for all operands, or exact for all operands, with a type that has the values -/
def AllGood (T U : Opd) (ty : Out Opd) (val : Int → Int → Out Int) (m : Int → Int → Option Int) : Prop :=
  (∀ t u, T.Has t → U.Has u → val t u = .fault .illFormed) ∨
  (∃ S, ty = .ret S ∧ S.Wf ∧ S.kind = .safe ∧
    ∀ t u, T.Has t → U.Has u → ∃ v, val t u = .ret v ∧ S.Has v ∧ m t u = some v)

theorem allGood_of {T U : Opd} (hT : T.Wf) (hU : U.Wf) {ty : Out Opd} {val : Int → Int → Out Int}
    {m : Int → Int → Option Int} {f : Int → Int → Int}
    (h : (∀ t u, T.Has t → U.Has u → val t u = .fault .illFormed) ∨
      (∀ t u, T.Has t → U.Has u → val t u = .ret (f t u) ∧ m t u = some (f t u)))
    (hb : ∀ t u v, T.Has t → U.Has u → val t u = .ret v → ∃ S, ty = .ret S ∧ S.Wf ∧ S.kind = .safe ∧ S.Has v) :
    AllGood T U ty val m := by
  rcases h with h | h
  · exact Or.inl h
  · have ra : T.Has T.lo := ⟨le_refl _, hT.2.2.2.1⟩
    have rb : U.Has U.lo := ⟨le_refl _, hU.2.2.2.1⟩
    obtain ⟨S, e, w, k, _⟩ := hb _ _ _ ra rb (h _ _ ra rb).1
    refine Or.inr ⟨S, e, w, k, fun t u ht hu => ?_⟩
    obtain ⟨h1, h2⟩ := h t u ht hu
    obtain ⟨S', e', _, _, hs⟩ := hb _ _ _ ht hu h1
    rw [e] at e'; obtain rfl := Out.ret.inj e'
    exact ⟨_, h1, hs, h2⟩

theorem op_trap {pp : PP} (hpp : pp.Wf) {p : EP} (hp : p.ae = .trap) {o : Op2} {T U : Opd} (hT : T.Wf) (hU : U.Wf)
    (hc : OpCovered pp p T U o) : AllGood T U (o.safeTy pp T U) (o.safeVal pp p T U) (imath o) := by
  have lin : ∀ a : Arith, (a = .add ∨ a = .sub ∨ a = .mul) → (∀ t u, imath (.ar a) t u = some (math a t u)) →
      AllGood T U (arithTy pp a T U) (arith pp p a T U) (imath (.ar a)) := fun a ha hi => by
    refine allGood_of (f := math a) hT hU ?_ (fun t u v ht hu h => C29_arith pp hpp p (Or.inr hp) a ha T U hT hU t u v ht hu h)
    rcases C30_arith pp hpp p hp a ha T U hT hU with h | h
    · exact Or.inl h
    · exact Or.inr fun t u ht hu => ⟨h t u ht hu, hi t u⟩
  cases o with
  | ar a =>
    cases a with
    | add => exact lin _ (by simp) fun _ _ => rfl
    | sub => exact lin _ (by simp) fun _ _ => rfl
    | mul => exact lin _ (by simp) fun _ _ => rfl
    | div =>
      refine allGood_of (f := Int.tdiv) hT hU ?_ (fun t u v ht hu h =>
        C56_div_policy_bounds_partial pp hpp p hp T U hT hU (fun R e => ⟨(hc R e).1, (hc R e).2.1⟩) t u v ht hu h)
      rcases C56_div pp hpp p hp T U hT hU (fun R e => Or.inr (hc R e).2.1) with h | h
      · exact Or.inl h
      · refine Or.inr fun t u ht hu => ?_
        obtain ⟨h0, h⟩ := h t u ht hu
        exact ⟨h, by simp [imath, h0]⟩
    | mod =>
      obtain ⟨hR', hS⟩ := hc
      have key := C56_mod_partial pp hpp p hp T U hT hU
        (fun R h => Or.inr ⟨fits_of_digits hT (hR' R h).1.1, fits_of_digits hU (hR' R h).1.2⟩)
        (fun R h hs hmin => absurd hmin ((hR' R h).2 hs))
      refine allGood_of (f := Int.tmod) hT hU ?_ (fun t u v ht hu h => ?_)
      · rcases key with h | h
        · exact Or.inl h
        · refine Or.inr fun t u ht hu => ?_
          obtain ⟨h0, h⟩ := h t u ht hu
          exact ⟨h, by simp [imath, h0]⟩
      · rcases key with g | g
        · have := g t u ht hu
          change arith pp p .mod T U t u = _ at h
          rw [this] at h; cases h
        · obtain ⟨h0, g⟩ := g t u ht hu
          change arith pp p .mod T U t u = _ at h
          rw [g] at h; cases h
          rcases PP.result_total hpp (op := .mod) (by decide) hT hU with ⟨R, e, hR⟩ | e
          · obtain ⟨S, e', k⟩ := mod_type e hT hU
            exact ⟨S, e', (hS S e').1, k, (hS S e').2 t u ht hu h0⟩
          · unfold arith at g
            rw [show Arith.mod.binOp = .mod from rfl, e] at g
            cases g
  | bit b =>
    rcases result_st pp b.binOp T U with ⟨R, e⟩ | e
    · have ra : T.Has T.lo := ⟨le_refl _, hT.2.2.2.1⟩
      have rb : U.Has U.lo := ⟨le_refl _, hU.2.2.2.1⟩
      obtain ⟨_, S, _, h2, h3, h4, _⟩ := bit_covered hT hU e (hc R e) ra rb
      refine Or.inr ⟨S, h2, h3, h4, fun t u ht hu => ?_⟩
      obtain ⟨v, S', h1, h2', _, _, h5, h6⟩ := bit_covered hT hU e (hc R e) ht hu
      rw [h2] at h2'; obtain rfl := Out.ret.inj h2'
      exact ⟨v, h1, h5, logic_int h6⟩
    · left; intro t u _ _
      show bitwise pp b T U t u = _
      unfold bitwise; rw [e]; rfl
  | shl =>
    obtain ⟨_, hc⟩ := hc
    refine allGood_of (f := fun t u => t * 2 ^ u.toNat) hT hU ?_
      (fun t u v ht hu h => C56_shl_bounds_partial pp hpp p hp T U hT hU hc t u v ht hu h)
    rcases C56_shl_partial pp hpp p hp T U hT hU hc with h | h
    · exact Or.inl h
    · refine Or.inr fun t u ht hu => ?_
      obtain ⟨h0, h⟩ := h t u ht hu
      exact ⟨h, by simp [imath, h0]⟩
  | shr =>
    obtain ⟨_, hc⟩ := hc
    refine allGood_of (f := fun t u => t / 2 ^ u.toNat) hT hU ?_
      (fun t u v ht hu h => C56_shr_bounds_partial pp hpp p hp T U hT hU hc t u v ht hu h)
    rcases C56_shr_partial pp hpp p hp T U hT hU hc with h | h
    · exact Or.inl h
    · refine Or.inr fun t u ht hu => ?_
      obtain ⟨h0, h1, h⟩ := h t u ht hu
      exact ⟨h, by simp [imath, h0, h1]⟩

theorem op_good {pp : PP} (hpp : pp.Wf) {p : EP} (hp : p.ae = .throw ∨ p.ae = .trap) {o : Op2} {T U : Opd} (hT : T.Wf)
    (hU : U.Wf) (hc : OpCovered pp p T U o) {t u : Int} (ht : T.Has t) (hu : U.Has u) :
    Good (o.safeTy pp T U) (o.safeVal pp p T U t u) (imath o t u) := by
  rcases hp with hp | hp
  · exact op_throw hpp hp hT hU hc ht hu
  · rcases op_trap hpp hp hT hU hc with h | ⟨S, h1, h2, h3, h⟩
    · exact Or.inr (Or.inr (h t u ht hu))
    · obtain ⟨v, g1, g2, g3⟩ := h t u ht hu
      exact Or.inl ⟨S, v, h1, h2, h3, g1, g2, g3⟩

/-! ### operators with policies -/

theorem pbuiltin_wf {N : Names} {B : ITy} (h : B.Ok) : PTy.Wf (PTy.builtin B : PTy N) :=
  ⟨wf_builtin h, fun _ => ⟨rfl, rfl⟩, nofun, nofun⟩

/-- exact with a type that has the value, or an exception, or rejected -/
def PGood {N : Names} (ty : Out (PTy N)) (val : Out Int) (m : Option Int) : Prop :=
  (∃ S v, ty = .ret S ∧ PTy.Wf S ∧ val = .ret v ∧ S.opd.Has v ∧ m = some v) ∨
  (∃ e, val = .thrown e) ∨ val = .fault .illFormed

omit [Arch] in
theorem isSafe_or {N : Names} {T U : PTy N} (h : T.isSafe = true ∨ U.isSafe = true) : (T.isSafe || U.isSafe) = true := by
  rcases h with h | h <;> simp [h]

theorem pbin_good {N : Names} (hN : Careful N) {o : Op2} {T U : PTy N} (hT : PTy.Wf T) (hU : PTy.Wf U)
    (hc : BinCovered o T U) {t u : Int} (ht : T.opd.Has t) (hu : U.opd.Has u) :
    PGood (pBinTy o T U) (pBinVal o T U t u) (imath o t u) := by
  obtain ⟨hs, hc⟩ := hc
  unfold pBinTy pBinVal
  rw [isSafe_or hs, if_pos rfl, if_pos rfl]
  rcases common_st T.pr U.pr with ⟨q, eq⟩ | eq
  · rcases common_st T.ex U.ex with ⟨e, ee⟩ | ee
    · rw [eq, ee]
      simp only [ret_bind]
      rcases op_good (hN.2 q) (hN.1 e) hT.1 hU.1 (hc q e eq ee) ht hu with ⟨S, v, h1, h2, h3, h4, h5, h6⟩ | h | h
      · refine Or.inl ⟨⟨S, some q, some e⟩, v, ?_, ⟨h2, ?_, ?_, ?_⟩, h4, h5, h6⟩
        · rw [h1]; rfl
        · intro h; simp [h3] at h
        · simp
        · intro b h; simp [h3] at h
      · exact Or.inr (Or.inl h)
      · exact Or.inr (Or.inr h)
    · rw [eq, ee]; exact Or.inr (Or.inr rfl)
  · rw [eq]; exact Or.inr (Or.inr rfl)

theorem ep_careful {N : Names} (hN : Careful N) {T : PTy N} (h : T.ex ≠ none) : T.ep.ae = .throw ∨ T.ep.ae = .trap := by
  unfold PTy.ep
  split
  · exact hN.1 _
  · contradiction

theorem litFail {p : EP} {R T : ITy} (hT : T.Ok) {K : Int} (h : T.In K) (hR : ¬ R.In K) :
    litToBuiltin p R ⟨T, K, K, .lit false⟩ = .fault .illFormed := by
  have wf : (⟨T, K, K, .lit false⟩ : Opd).Wf := ⟨hT, h, h, le_refl _, nofun, fun _ _ => rfl⟩
  unfold litToBuiltin litCheck
  dsimp only
  rw [castItv_eq wf, ret_bind]
  show ((if exclStatic R R.min R.max ⟨T, K, K, .lit false⟩ = true then Out.fault .illFormed
    else if (!(inclStatic R R.min R.max ⟨T, K, K, .lit false⟩) && !false) = true then .fault .illFormed else .ret ()) >>= fun _ => _) = _
  split
  · rfl
  · rw [if_pos]; · rfl
    have : inclStatic R R.min R.max ⟨T, K, K, .lit false⟩ = false := by
      by_contra hh
      exact hR (inclStatic_sound (T := ⟨T, K, K, .lit false⟩) R.in_min R.in_max (by simpa using hh))
    rw [this]; rfl

theorem validate_good {p : EP} (hp : p.ae = .throw ∨ p.ae = .trap) {S T : Opd} (hS : S.Wf) (hT : T.Wf) {t : Int} (ht : T.Has t) :
    (validate S.base S.lo S.hi p T t = .ret t ∧ S.Has t) ∨ (∃ e, validate S.base S.lo S.hi p T t = .thrown e) ∨
    validate S.base S.lo S.hi p T t = .fault .illFormed := by
  rw [validate_eq hS.2.1 hS.2.2.1 hT ht]
  split
  · exact Or.inr (Or.inr rfl)
  · split
    · rename_i h
      have := inclStatic_sound hS.2.1 hS.2.2.1 h
      have h1 := ht.1; have h2 := ht.2
      exact Or.inl ⟨rfl, by omega, by omega⟩
    · rcases hp with hp | hp <;> rw [hp] <;> dsimp only
      · split
        · rename_i h; exact Or.inl ⟨rfl, h⟩
        · exact Or.inr (Or.inl ⟨_, rfl⟩)
      · exact Or.inr (Or.inr rfl)

/-- conversion with a trapping policy: rejected or exact, whatever the value -/
theorem validate_trap {p : EP} (hp : p.ae = .trap) {S T : Opd} (hS : S.Wf) (hT : T.Wf) :
    (∀ t, T.Has t → validate S.base S.lo S.hi p T t = .fault .illFormed) ∨
    (∀ t, T.Has t → validate S.base S.lo S.hi p T t = .ret t ∧ S.Has t) := by
  by_cases h1 : exclStatic S.base S.lo S.hi T = true
  · left; intro t ht
    rw [validate_eq hS.2.1 hS.2.2.1 hT ht, if_pos h1]
  · by_cases h2 : inclStatic S.base S.lo S.hi T = true
    · right; intro t ht
      have := inclStatic_sound hS.2.1 hS.2.2.1 h2
      have h3 := ht.1; have h4 := ht.2
      rw [validate_eq hS.2.1 hS.2.2.1 hT ht, if_neg h1, if_pos h2]
      exact ⟨rfl, by omega, by omega⟩
    · left; intro t ht
      rw [validate_eq hS.2.1 hS.2.2.1 hT ht, if_neg h1, if_neg h2, hp]

theorem toBuiltin_trap {p : EP} (hp : p.ae = .trap) (R : ITy) {T : Opd} (hT : T.Wf) :
    (∀ t, T.Has t → toBuiltin p R T t = .fault .illFormed) ∨ (∀ t, T.Has t → toBuiltin p R T t = .ret t ∧ R.In t) := by
  unfold toBuiltin
  split
  · exact Or.inl fun _ _ => rfl
  · by_cases h1 : exclStatic R R.min R.max (Opd.ofBuiltin T.base) = true
    · left; intro t ht
      rw [validate_eq R.in_min R.in_max (wf_builtin hT.1) (hT.has_in ht), if_pos h1]
    · by_cases h2 : inclStatic R R.min R.max (Opd.ofBuiltin T.base) = true
      · right; intro t ht
        have := inclStatic_sound R.in_min R.in_max h2
        change R.min ≤ T.base.min ∧ T.base.max ≤ R.max at this
        have h3 := (hT.has_in ht).1; have h4 := (hT.has_in ht).2
        rw [validate_eq R.in_min R.in_max (wf_builtin hT.1) (hT.has_in ht), if_neg h1, if_pos h2]
        exact ⟨rfl, by omega, by omega⟩
      · left; intro t ht
        rw [validate_eq R.in_min R.in_max (wf_builtin hT.1) (hT.has_in ht), if_neg h1, if_neg h2, hp]

theorem litTrap {p : EP} (hp : p.ae = .trap) {R T : ITy} (hT : T.Ok) {K : Int} {b : Bool} (h : T.In K) (hR : ¬ R.In K) :
    litToBuiltin p R ⟨T, K, K, .lit b⟩ = .fault .illFormed := by
  have wf : (⟨T, K, K, .lit b⟩ : Opd).Wf := ⟨hT, h, h, le_refl _, nofun, fun _ _ => rfl⟩
  unfold litToBuiltin
  rw [litCheck_eq wf]
  split
  · show validate R R.min R.max p ⟨T, K, K, .lit b⟩ K = _
    rw [validate_eq R.in_min R.in_max wf ⟨le_refl _, le_refl _⟩]
    split
    · rfl
    · split
      · rename_i hi
        exact absurd (inclStatic_sound (T := ⟨T, K, K, .lit b⟩) R.in_min R.in_max hi) hR
      · rw [hp]
  · rfl

theorem conv_good {N : Names} (hN : Careful N) {S T : PTy N} (hT : PTy.Wf T) (hc : ConvCovered S T) {t : Int}
    (ht : T.opd.Has t) :
    (convTo S T t = .ret t ∧ S.opd.Has t) ∨ (∃ e, convTo S T t = .thrown e) ∨ convTo S T t = .fault .illFormed := by
  obtain ⟨hS, hl, hc⟩ := hc
  unfold convTo
  rcases hl with hk | hk
  · rw [hk]
    dsimp only
    have hb := hS.1.2.2.2.2.1 hk
    have has : ∀ v, S.opd.base.In v → S.opd.Has v := fun v h => ⟨by rw [hb.1]; exact h.1, by rw [hb.2]; exact h.2⟩
    rcases hkT : T.opd.kind with _ | _ | b
    · dsimp only
      have hin : S.opd.base.In t := by
        rcases hc with h | h | h
        · simp [PTy.isSafe, hk] at h
        · simp [PTy.isSafe, hkT] at h
        · exact h t (hT.1.has_in ht)
      rw [conv_of_in hin]
      exact Or.inl ⟨rfl, has t hin⟩
    · dsimp only
      rcases ep_careful hN (hT.2.2.1 hkT).2 with hp | hp
      · obtain ⟨h1, h2⟩ := C22_toBuiltin T.ep hp S.opd.base T.opd hT.1 t ht
        by_cases hin : S.opd.base.In t
        · exact Or.inl ⟨h1 hin, has t hin⟩
        · exact Or.inr (Or.inl (h2 hin))
      · rcases toBuiltin_trap hp S.opd.base hT.1 with h | h
        · exact Or.inr (Or.inr (h t ht))
        · exact Or.inl ⟨(h t ht).1, has t (h t ht).2⟩
    · dsimp only
      have e1 := hT.1.2.2.2.2.2 b hkT
      have et : t = T.opd.lo := by have := ht.1; have := ht.2; omega
      have eT : T.opd = ⟨T.opd.base, T.opd.lo, T.opd.lo, .lit b⟩ := by
        rcases h : T.opd with ⟨B, l, u, k⟩
        rw [h] at e1 hkT; dsimp only at e1 hkT ⊢; subst e1 hkT; rfl
      rw [eT, et]
      obtain ⟨h1, h2⟩ := C40_convert T.ep S.opd.base T.opd.base hT.1.1 T.opd.lo b hT.1.2.1
      by_cases hin : S.opd.base.In T.opd.lo
      · exact Or.inl ⟨h1 hin, has _ hin⟩
      · have hb := hT.2.2.2 b hkT
        cases hx : T.ex with
        | none =>
          rw [hx] at hb; subst hb
          exact Or.inr (Or.inr (litFail hT.1.1 hT.1.2.1 hin))
        | some e =>
          rcases ep_careful hN (T := T) (by simp [hx]) with hp | hp
          · rcases h2 hin hp with h | h
            · exact Or.inr (Or.inr h)
            · exact Or.inr (Or.inl h)
          · exact Or.inr (Or.inr (litTrap hp hT.1.1 hT.1.2.1 hin))
  · rw [hk]
    dsimp only
    split
    · rename_i h; subst h; exact Or.inl ⟨rfl, ht⟩
    · rcases validate_good (ep_careful hN (hS.2.2.1 hk).2) hS.1 hT.1 ht with h | h | h
      · exact Or.inl h
      · exact Or.inr (Or.inl h)
      · exact Or.inr (Or.inr h)

theorem tInt_ok : tInt.Ok := Arch.intMax

theorem neg_good {N : Names} (hN : Careful N) {T : PTy N} (hT : PTy.Wf T) (hs : T.isSafe = true) {t : Int}
    (ht : T.opd.Has t) : PGood (negTyOf T) (negValOf T t) (some (-t)) := by
  unfold negTyOf negValOf
  rcases hk : T.opd.kind with _ | _ | b
  · simp [PTy.isSafe, hk] at hs
  · dsimp only
    have := pbin_good hN (o := .ar .sub) (pbuiltin_wf tInt_ok) hT ⟨Or.inr hs, fun q e _ _ => trivial⟩
      (t := 0) (ITy.in_zero tInt) ht
    simpa [imath] using this
  · dsimp only
    have e1 := hT.1.2.2.2.2.2 b hk
    have et : t = T.opd.lo := by have := ht.1; have := ht.2; omega
    have eT : T.opd = ⟨T.opd.base, T.opd.lo, T.opd.lo, .lit b⟩ := by
      rcases h : T.opd with ⟨B, l, u, k⟩
      rw [h] at e1 hk; dsimp only at e1 hk ⊢; subst e1 hk; rfl
    rw [eT, et, C40_minus _ _ _ hT.1.2.1]
    split
    · rename_i h
      refine Or.inl ⟨_, _, rfl, ⟨⟨hT.1.1, h, h, le_refl _, nofun, fun _ _ => rfl⟩, nofun,
        nofun, fun c h => ?_⟩, rfl, ⟨le_refl _, le_refl _⟩, rfl⟩
      cases h
      exact hT.2.2.2 b hk
    · exact Or.inr (Or.inr rfl)

theorem pos_good {N : Names} {T : PTy N} (hT : PTy.Wf T) {t : Int} (ht : T.opd.Has t) :
    PTy.Wf (posTyOf T) ∧ (posTyOf T).opd.Has t := by
  unfold posTyOf
  split
  · rename_i hk
    have hin := hT.1.has_in ht
    exact ⟨pbuiltin_wf (promote_ok hT.1.1), in_promote hin⟩
  · exact ⟨hT, ht⟩

/-! ### expressions and conditions -/

theorem eval_good {N : Names} (hN : Careful N) {n : Nat} {Γ : Fin n → PTy N} (hΓ : GoodVars Γ) {s : Fin n → Int}
    (hs : Ranged Γ s) : ∀ e : LExpr N n, ECovered Γ e → PGood (e.ty Γ) (e.eval Γ s) (ival s e)
  | .var i, _ => Or.inl ⟨Γ i, s i, rfl, (hΓ i).1, rfl, hs i, rfl⟩
  | .const B k, h => Or.inl ⟨_, k, rfl, pbuiltin_wf h.1, rfl, h.2, rfl⟩
  | .lit L, h => Or.inl ⟨L, L.opd.lo, rfl, h.1, rfl, ⟨le_refl _, h.1.1.2.2.2.1⟩, rfl⟩
  | .pos a, h => by
    simp only [LExpr.eval, LExpr.ty, ival]
    rcases eval_good hN hΓ hs a h with ⟨T, v, h1, h2, h3, h4, h5⟩ | h | h
    · rw [h1]
      obtain ⟨g1, g2⟩ := pos_good h2 h4
      exact Or.inl ⟨_, v, rfl, g1, h3, g2, h5⟩
    · exact Or.inr (Or.inl h)
    · exact Or.inr (Or.inr h)
  | .cast S a, h => by
    obtain ⟨ha, hc⟩ := h
    have ka := eval_good hN hΓ hs a ha
    simp only [LExpr.eval, LExpr.ty, ival]
    rcases ty_st Γ a with ⟨A, ea⟩ | ea
    · rw [ea, ret_bind]
      rcases ka with ⟨A', x, ea', wA, vx, hx, mx⟩ | ⟨x, ex⟩ | ex
      · rw [ea] at ea'; obtain rfl := Out.ret.inj ea'
        rw [vx, ret_bind]
        rcases conv_good hN wA (hc A ea) hx with ⟨h1, h2⟩ | h | h
        · exact Or.inl ⟨S, x, rfl, (hc A ea).1, h1, h2, mx⟩
        · exact Or.inr (Or.inl h)
        · exact Or.inr (Or.inr h)
      · rw [ex]; exact Or.inr (Or.inl ⟨x, rfl⟩)
      · rw [ex]; exact Or.inr (Or.inr rfl)
    · rw [ea]; exact Or.inr (Or.inr rfl)
  | .neg a, h => by
    obtain ⟨ha, hc⟩ := h
    have ka := eval_good hN hΓ hs a ha
    simp only [LExpr.eval, LExpr.ty, ival]
    rcases ty_st Γ a with ⟨A, ea⟩ | ea
    · rw [ea, ret_bind]
      rcases ka with ⟨A', x, ea', wA, vx, hx, mx⟩ | ⟨x, ex⟩ | ex
      · rw [ea] at ea'; obtain rfl := Out.ret.inj ea'
        rw [vx, ret_bind, mx]
        exact neg_good hN wA (hc A ea) hx
      · rw [ex]; exact Or.inr (Or.inl ⟨x, rfl⟩)
      · rw [ex]; exact Or.inr (Or.inr rfl)
    · rw [ea]; exact Or.inr (Or.inr rfl)
  | .bin o a b, h => by
    obtain ⟨ha, hb, hc⟩ := h
    have ka := eval_good hN hΓ hs a ha
    have kb := eval_good hN hΓ hs b hb
    simp only [LExpr.eval, LExpr.ty, ival]
    rcases ty_st Γ a with ⟨A, ea⟩ | ea
    · rcases ty_st Γ b with ⟨B, eb⟩ | eb
      · rw [ea, eb]
        simp only [ret_bind]
        rcases ka with ⟨A', x, ea', wA, vx, hx, mx⟩ | ⟨x, ex⟩ | ex
        · rw [ea] at ea'; obtain rfl := Out.ret.inj ea'
          rcases kb with ⟨B', y, eb', wB, vy, hy, my⟩ | ⟨y, ey⟩ | ey
          · rw [eb] at eb'; obtain rfl := Out.ret.inj eb'
            rw [vx, vy, mx, my]
            exact pbin_good hN wA wB (hc A B ea eb) hx hy
          · rw [vx, ey]; exact Or.inr (Or.inl ⟨y, rfl⟩)
          · rw [vx, ey]; exact Or.inr (Or.inr rfl)
        · rw [ex]; exact Or.inr (Or.inl ⟨x, rfl⟩)
        · rw [ex]; exact Or.inr (Or.inr rfl)
      · rw [ea, eb]; exact Or.inr (Or.inr rfl)
    · rw [ea]; exact Or.inr (Or.inr rfl)

theorem cRel_in {o : Rel} {B C : ITy} {t u : Int} (ht : (uac B C).In t) (hu : (uac B C).In u) : cRel o B C t u = rel o t u := by
  cases o <;> simp [cRel, rel, cLt, cGt, cLe, cGe, cEq, cNe, conv_of_in ht, conv_of_in hu]

theorem isSafe_not {N : Names} {T U : PTy N} (h : ¬ (T.isSafe = true ∨ U.isSafe = true)) : (T.isSafe || U.isSafe) = false := by
  rcases hT : T.isSafe <;> rcases hU : U.isSafe <;> simp_all

/-- a covered comparison is one of the library, or a built-in one that is correct -/
theorem cmp_cases {N : Names} {T U : PTy N} (h : CmpCovered T U) :
    (T.isSafe = true ∨ U.isSafe = true) ∨ ((T.isSafe || U.isSafe) = false ∧
      (∀ t u, T.opd.Has t → U.opd.Has u → (uac T.opd.base U.opd.base).In t ∧ (uac T.opd.base U.opd.base).In u) ∧
      ∀ o t u, T.opd.Has t → U.opd.Has u → pCompare o T U t u = .ret (rel o t u)) := by
  by_cases hs : T.isSafe = true ∨ U.isSafe = true
  · exact Or.inl hs
  · have h := h.resolve_left hs
    refine Or.inr ⟨isSafe_not hs, fun t u ht hu => ⟨h t (Or.inl ht), h u (Or.inr hu)⟩, fun o t u ht hu => ?_⟩
    unfold pCompare
    rw [isSafe_not hs, if_neg (by decide), cRel_in (h t (Or.inl ht)) (h u (Or.inr hu))]

theorem common_plain {N : Names} {T U : PTy N} (hT : PTy.Wf T) (hU : PTy.Wf U) (hs : (T.isSafe || U.isSafe) = false) (q : N.P) :
    common T.pr U.pr ≠ .ret q := by
  have h1 : T.opd.kind = .builtin := by
    by_contra h; simp [PTy.isSafe, h] at hs
  have h2 : U.opd.kind = .builtin := by
    by_contra h; simp [PTy.isSafe, h] at hs
  rw [(hT.2.1 h1).1, (hU.2.1 h2).1]
  simp [common]

theorem output_good {N : Names} {T : PTy N} (hT : PTy.Wf T) (hc : T.isSafe = true ∨ T.opd.base.lg ≠ 0) {t : Int}
    (ht : T.opd.Has t) : outputStep T t = .ret (printInt t) := by
  unfold outputStep
  split_ifs with h1 h2
  · rw [C51_output T.opd hT.1 t ht]
  · rcases hc with h | h
    · exact absurd h h1
    · exact absurd (by simpa [isCharTy] using h2) h
  · rfl

theorem compare_good {N : Names} (hN : Careful N) {o : Rel} {T U : PTy N} (hT : PTy.Wf T) (hU : PTy.Wf U)
    (hs : CmpCovered T U) {t u : Int} (ht : T.opd.Has t) (hu : U.opd.Has u) :
    ExactOrThrows (pCompare o T U t u) (rel o t u) := by
  rcases cmp_cases hs with hs | ⟨_, _, h⟩
  case inr => exact Or.inl (h o t u ht hu)
  unfold pCompare
  rw [isSafe_or hs, if_pos rfl]
  rcases common_st T.pr U.pr with ⟨q, eq⟩ | eq
  · rcases common_st T.ex U.ex with ⟨e, ee⟩ | ee
    · rw [eq, ee]
      rcases hN.1 e with hp | hp
      · exact C28_exact (N.prom q) (hN.2 q) (N.act e) hp o T.opd U.opd hT.1 hU.1 t u ht hu
      · rcases C30_compare (N.prom q) (hN.2 q) (N.act e) hp o T.opd U.opd hT.1 hU.1 with h | h
        · exact Or.inr (Or.inr (h t u ht hu))
        · exact Or.inl (h t u ht hu)
    · rw [eq, ee]; exact Or.inr (Or.inr rfl)
  · rw [eq]; exact Or.inr (Or.inr rfl)

theorem boolRun_careful {p : EP} (hp : p.ae = .throw ∨ p.ae = .trap) (t : Int) :
    boolRun p t = .ret (decide (t ≠ 0)) ∨ (∃ e, boolRun p t = .thrown e) ∨ boolRun p t = .fault .illFormed := by
  unfold boolRun
  rcases hp with hp | hp <;> rw [hp] <;> dsimp only
  · split_ifs
    · exact Or.inr (Or.inl ⟨_, rfl⟩)
    · exact Or.inr (Or.inl ⟨_, rfl⟩)
    · exact Or.inl rfl
  · exact Or.inr (Or.inr rfl)

theorem truth_good {N : Names} (hN : Careful N) {T : PTy N} (hT : PTy.Wf T) {t : Int} (ht : T.opd.Has t) :
    ExactOrThrows (toBool T.ep T.opd t) (decide (t ≠ 0)) := by
  rcases hk : T.opd.kind with _ | _ | b
  · unfold toBool; rw [hk]; exact Or.inl rfl
  · rw [toBool_safe hT.1 hk ht]
    exact boolRun_careful (ep_careful hN (hT.2.2.1 hk).2) t
  · have e1 := hT.1.2.2.2.2.2 b hk
    have et : t = T.opd.lo := by have := ht.1; have := ht.2; omega
    rw [toBool_lit hT.1 hk, et]
    split_ifs with h1 h2
    · exact Or.inl rfl
    · exact Or.inr (Or.inr rfl)
    · refine boolRun_careful (ep_careful hN fun h => h2 (Or.inr ?_)) _
      rw [hT.2.2.2 b hk, h]; rfl

theorem cond_good {N : Names} (hN : Careful N) {n : Nat} {Γ : Fin n → PTy N} (hΓ : GoodVars Γ) {s : Fin n → Int}
    (hs : Ranged Γ s) : ∀ c : LCond N n, CCovered Γ c →
      (∃ b, c.eval Γ s = .ret b ∧ icond s c = some b) ∨ (∃ e, c.eval Γ s = .thrown e) ∨ c.eval Γ s = .fault .illFormed
  | .cmp o a b, h => by
    obtain ⟨ha, hb, hc⟩ := h
    have ka := eval_good hN hΓ hs a ha
    have kb := eval_good hN hΓ hs b hb
    simp only [LCond.eval, icond]
    rcases ty_st Γ a with ⟨A, ea⟩ | ea
    · rcases ty_st Γ b with ⟨B, eb⟩ | eb
      · rw [ea, eb]
        simp only [ret_bind]
        rcases ka with ⟨A', x, ea', wA, vx, hx, mx⟩ | ⟨x, ex⟩ | ex
        · rw [ea] at ea'; obtain rfl := Out.ret.inj ea'
          rcases kb with ⟨B', y, eb', wB, vy, hy, my⟩ | ⟨y, ey⟩ | ey
          · rw [eb] at eb'; obtain rfl := Out.ret.inj eb'
            rw [vx, vy, mx, my]
            rcases compare_good hN (o := o) wA wB (hc A B ea eb) hx hy with h | h | h
            · exact Or.inl ⟨_, h, rfl⟩
            · exact Or.inr (Or.inl h)
            · exact Or.inr (Or.inr h)
          · rw [vx, ey]; exact Or.inr (Or.inl ⟨y, rfl⟩)
          · rw [vx, ey]; exact Or.inr (Or.inr rfl)
        · rw [ex]; exact Or.inr (Or.inl ⟨x, rfl⟩)
        · rw [ex]; exact Or.inr (Or.inr rfl)
      · rw [ea, eb]; exact Or.inr (Or.inr rfl)
    · rw [ea]; exact Or.inr (Or.inr rfl)
  | .truth a, h => by
    simp only [LCond.eval, icond]
    rcases eval_good hN hΓ hs a h with ⟨A, x, ea, wA, vx, hx, mx⟩ | ⟨x, ex⟩ | ex
    · rw [ea, vx, mx]
      simp only [ret_bind]
      rcases truth_good hN wA hx with h | h | h
      · exact Or.inl ⟨_, h, rfl⟩
      · exact Or.inr (Or.inl h)
      · exact Or.inr (Or.inr h)
    · rcases ty_st Γ a with ⟨A, ea⟩ | ea <;> rw [ea]
      · rw [ex]; exact Or.inr (Or.inl ⟨x, rfl⟩)
      · exact Or.inr (Or.inr rfl)
    · rcases ty_st Γ a with ⟨A, ea⟩ | ea <;> rw [ea]
      · rw [ex]; exact Or.inr (Or.inr rfl)
      · exact Or.inr (Or.inr rfl)
  | .not a, h => by
    simp only [LCond.eval, icond]
    rcases cond_good hN hΓ hs a h with ⟨b, h1, h2⟩ | ⟨e, h⟩ | h
    · rw [h1, h2]; exact Or.inl ⟨_, rfl, rfl⟩
    · rw [h]; exact Or.inr (Or.inl ⟨e, rfl⟩)
    · rw [h]; exact Or.inr (Or.inr rfl)
  | .and a b, h => by
    simp only [LCond.eval, icond]
    rcases cond_good hN hΓ hs a h.1 with ⟨x, h1, h2⟩ | ⟨e, h⟩ | h
    · rw [h1, h2]
      cases x
      · exact Or.inl ⟨false, rfl, rfl⟩
      · exact cond_good hN hΓ hs b h.2
    · rw [h]; exact Or.inr (Or.inl ⟨e, rfl⟩)
    · rw [h]; exact Or.inr (Or.inr rfl)
  | .or a b, h => by
    simp only [LCond.eval, icond]
    rcases cond_good hN hΓ hs a h.1 with ⟨x, h1, h2⟩ | ⟨e, h⟩ | h
    · rw [h1, h2]
      cases x
      · exact cond_good hN hΓ hs b h.2
      · exact Or.inl ⟨true, rfl, rfl⟩
    · rw [h]; exact Or.inr (Or.inl ⟨e, rfl⟩)
    · rw [h]; exact Or.inr (Or.inr rfl)

/-! ### statements -/

theorem assign_good {N : Names} (hN : Careful N) {n : Nat} {Γ : Fin n → PTy N} (hΓ : GoodVars Γ) {s : Fin n → Int}
    (hs : Ranged Γ s) {i : Fin n} {e : LExpr N n} (he : ECovered Γ e) (hc : ∀ T, e.ty Γ = .ret T → ConvCovered (Γ i) T) :
    (∃ v, assignVal Γ s i e = .ret v ∧ (Γ i).opd.Has v ∧ ival s e = some v) ∨ (∃ x, assignVal Γ s i e = .thrown x) ∨
    assignVal Γ s i e = .fault .illFormed := by
  unfold assignVal
  have ka := eval_good hN hΓ hs e he
  rcases ty_st Γ e with ⟨A, ea⟩ | ea
  · rw [ea, ret_bind]
    rcases ka with ⟨A', x, ea', wA, vx, hx, mx⟩ | ⟨x, ex⟩ | ex
    · rw [ea] at ea'; obtain rfl := Out.ret.inj ea'
      rw [vx, ret_bind]
      rcases conv_good hN wA (hc A ea) hx with ⟨h1, h2⟩ | h | h
      · exact Or.inl ⟨x, h1, h2, mx⟩
      · exact Or.inr (Or.inl h)
      · exact Or.inr (Or.inr h)
    · rw [ex]; exact Or.inr (Or.inl ⟨x, rfl⟩)
    · rw [ex]; exact Or.inr (Or.inr rfl)
  · rw [ea]; exact Or.inr (Or.inr rfl)

/-- the result type of an operator of the library is a safe type -/
theorem pBinTy_safe {N : Names} {o : Op2} {T U S : PTy N} (hs : T.isSafe = true ∨ U.isSafe = true)
    (h : pBinTy o T U = .ret S) : S.isSafe = true := by
  unfold pBinTy at h
  rw [isSafe_or hs, if_pos rfl] at h
  rcases common_st T.pr U.pr with ⟨q, eq⟩ | eq
  · rcases common_st T.ex U.ex with ⟨e, ee⟩ | ee
    · rw [eq, ee] at h
      simp only [ret_bind] at h
      rcases safeTy_st (N.prom q) o T.opd U.opd with ⟨R, er⟩ | er
      · rw [er, ret_bind] at h
        cases h
        have res : ∀ (f : ITy → Itv CR → Itv CR → Out (Itv CR)) (b : BinOp),
            (do let R' ← (N.prom q).result b T.opd U.opd; resTy f R' T.opd U.opd) = .ret R → R.kind = .safe := by
          intro f b h
          rcases result_st (N.prom q) b T.opd U.opd with ⟨R', e'⟩ | e'
          · rw [e', ret_bind] at h
            unfold resTy at h
            rcases resItv_st f R' T.opd U.opd with ⟨ri, g⟩ | g
            · rw [g, ret_bind] at h; cases h; rfl
            · rw [g] at h; cases h
          · rw [e'] at h; cases h
        have : R.kind = .safe := by
          cases o with
          | ar a => exact res _ _ er
          | shl => exact res _ _ er
          | shr => exact res _ _ er
          | bit b =>
            change bitwiseTy _ b T.opd U.opd = .ret R at er
            unfold bitwiseTy at er
            rcases result_st (N.prom q) b.binOp T.opd U.opd with ⟨R', e'⟩ | e'
            · rw [e', ret_bind] at er
              unfold bitTy at er
              dsimp only at er
              rcases Static.static (roundOut R'.toUnsigned (b.pick (conv R'.toUnsigned T.opd.hi) (conv R'.toUnsigned U.opd.hi))) with
                ⟨m, g⟩ | g
              · rw [g, ret_bind] at er
                split at er
                · cases er; rfl
                · cases er
              · rw [g] at er; cases er
            · rw [e'] at er; cases er
        unfold PTy.isSafe
        simp [this]
      · rw [er] at h; cases h
    · rw [eq, ee] at h; cases h
  · rw [eq] at h; cases h

theorem opAssign_good {N : Names} (hN : Careful N) {n : Nat} {Γ : Fin n → PTy N} (hΓ : GoodVars Γ) {s : Fin n → Int}
    (hs : Ranged Γ s) {o : Op2} {i : Fin n} {e : LExpr N n} (hc : AssignCovered Γ o i e) :
    (∃ v, opAssignVal Γ s o i e = .ret v ∧ (Γ i).opd.Has v ∧ (do imath o (s i) (← ival s e)) = some v) ∨
    (∃ x, opAssignVal Γ s o i e = .thrown x) ∨ opAssignVal Γ s o i e = .fault .illFormed := by
  obtain ⟨he, hc⟩ := hc
  unfold opAssignVal
  have ka := eval_good hN hΓ hs e he
  rcases ty_st Γ e with ⟨A, ea⟩ | ea
  · rw [ea, ret_bind]
    rcases ka with ⟨A', x, ea', wA, vx, hx, mx⟩ | ⟨x, ex⟩ | ex
    · rw [ea] at ea'; obtain rfl := Out.ret.inj ea'
      rw [vx, ret_bind, mx]
      have kb := pbin_good hN (hΓ i).1 wA (hc A ea) (hs i) hx
      rcases pBinTy_st o (Γ i) A with ⟨S, es⟩ | es
      · rw [es, ret_bind]
        rcases kb with ⟨S', v, es', wS, hv, hS, hm⟩ | ⟨x, ex⟩ | ex
        · rw [es] at es'; obtain rfl := Out.ret.inj es'
          rw [hv, ret_bind]
          have cov : ConvCovered (Γ i) S := ⟨(hΓ i).1, (hΓ i).2, Or.inr (Or.inl (pBinTy_safe (hc A ea).1 es))⟩
          rcases conv_good hN wS cov hS with ⟨h1, h2⟩ | h | h
          · exact Or.inl ⟨v, h1, h2, hm⟩
          · exact Or.inr (Or.inl h)
          · exact Or.inr (Or.inr h)
        · rw [ex]; exact Or.inr (Or.inl ⟨x, rfl⟩)
        · rw [ex]; exact Or.inr (Or.inr rfl)
      · rw [es]; exact Or.inr (Or.inr rfl)
    · rw [ex]; exact Or.inr (Or.inl ⟨x, rfl⟩)
    · rw [ex]; exact Or.inr (Or.inr rfl)
  · rw [ea]; exact Or.inr (Or.inr rfl)

theorem inc_covered {N : Names} {n : Nat} {Γ : Fin n → PTy N} {i : Fin n} (h : (Γ i).isSafe = true) {o : Op2}
    (ho : o = .ar .add ∨ o = .ar .sub) : AssignCovered Γ o i (.const tInt 1) := by
  refine ⟨⟨tInt_ok, ITy.in_one tInt⟩, fun U _ => ⟨Or.inl h, fun q e _ _ => ?_⟩⟩
  rcases ho with rfl | rfl <;> trivial

omit [Arch] in
theorem iread_number {b rest : List Char} {neg : Bool} {k : Int} (h : NumberAt b neg k rest) : iread b = some (k, rest) := by
  obtain ⟨ds, _, h2, h3, h4, _⟩ := number_scan h
  unfold iread
  rw [h2]
  have : ds.isEmpty = false := by cases ds <;> simp_all
  simp only [this, h4]
  rfl

theorem inputStatic_trap {p : EP} (hp : p.ae = .trap) {T : Opd} (hT : T.Wf) : inputStatic p T = .fault .illFormed := by
  have hd : p.traps [.domain_error] = true := by
    unfold EP.traps; simp [EP.act, makeAction, hp]
  have key : ∀ B : ITy, B.Ok → Static (validateStatic T.base T.lo T.hi p (Opd.ofBuiltin B)) := by
    intro B hB
    exact .bind (castItv_st _ _) fun _ => .ite .ill (.ite (.ret _) (.ite .ill (.ret _)))
  unfold inputStatic
  rcases key tInt tInt_ok with ⟨_, h⟩ | h
  · rw [h, ret_bind]
    rcases key T.base hT.1 with ⟨_, g⟩ | g
    · rw [g, ret_bind, hd]; rfl
    · rw [g]; rfl
  · rw [h]; rfl

theorem input_throw {p : EP} (hp : p.ae = .throw) {T : Opd} (hT : T.Wf) (hc : T.base.lg ≠ 0) (old : Int) (s : IStream)
    (ho : T.base.In old) :
    (input p T old s).1 = .ret () ∨ (∃ e, (input p T old s).1 = .thrown e) ∨ (input p T old s).1 = .fault .illFormed := by
  unfold input
  rcases inputStatic_cases hp hT with e | ⟨e, _⟩
  · rw [e]; exact Or.inr (Or.inr rfl)
  rw [e]; dsimp only
  have hcc : isCharTy T.base = false := by unfold isCharTy; simpa using hc
  rw [hcc]
  simp only [Bool.false_eq_true, if_false]
  have hm := extract_in (s := inputPrep T s) ho
  unfold inputInt
  rcases hx : (inputPrep T s).extract T.base id old with ⟨m, s'⟩
  rw [hx] at hm
  dsimp only at hm ⊢
  split
  · rw [dispatch_throw hp]; exact Or.inr (Or.inl ⟨_, rfl⟩)
  · rcases input_validate_cases hp hT hT.1 hm with w | ⟨w, _⟩ | ⟨⟨_, w⟩, _⟩
    · rw [w]; exact Or.inr (Or.inr rfl)
    · rw [w]; exact Or.inl rfl
    · rw [w]; exact Or.inr (Or.inl ⟨_, rfl⟩)

theorem input_cases {p : EP} (hp : p.ae = .throw ∨ p.ae = .trap) {T : Opd} (hT : T.Wf) (hc : T.base.lg ≠ 0) (old : Int)
    (s : IStream) (hr : T.lo = T.base.min ∧ T.hi = T.base.max) (ho : T.Has old) :
    T.Has (input p T old s).2.1 ∧
    ((∃ neg n rest, NumberAt s.buf neg n rest ∧ T.Has n ∧ input p T old s = (.ret (), n, ⟨rest, rest.isEmpty, false⟩)) ∨
      (∃ e, (input p T old s).1 = .thrown e) ∨ (input p T old s).1 = .fault .illFormed) := by
  rcases hp with hp | hp
  · refine ⟨C37_invariant_partial p hp T hT (Or.inr hr) old s ho, ?_⟩
    rcases input_throw hp hT hc old s (hT.has_in ho) with h | h | h
    · obtain ⟨neg, n, rest, h1, h2, h3, _⟩ := C37_reads_partial p hp T hT hc old s h
      exact Or.inl ⟨neg, n, rest, h1, h2, h3⟩
    · exact Or.inr (Or.inl h)
    · exact Or.inr (Or.inr h)
  · unfold input
    rw [inputStatic_trap hp hT]
    exact ⟨ho, Or.inr (Or.inr rfl)⟩

end
end Verif.Lang
