import Verif.Props.Fits
import Verif.Props.LangTrap
import Verif.Props.ModType
import Mathlib.Tactic.Linarith
import Mathlib.Tactic.Positivity

/-!
Property C95: a subset of C++ programs, described by their syntax and the declared types alone, for which the library keeps its promise
without further conditions: native promotion; `+ - * /`, unary minus and plus, comparisons; bitwise operators on operands that are
declared without negative values; shifts and remainders of declared variables with the right ranges; every operator has a safe
operand.
-/

namespace Verif.Spec
section
variable [Arch]

/-- native promotion only; policies throw or trap, also on implementation defined behaviour (or trap all errors) -/
def Plainly (N : Names) : Prop :=
  (∀ e, (N.act e).ae = .throw ∨ (N.act e).ae = .trap) ∧ (∀ e, (N.act e).idb = .throw ∨ (N.act e).ae = .trap) ∧ ∀ q, N.prom q = .native

/-- the type of a variable, constant, literal or cast, as declared -/
def declared {N : Names} (Γ : Fin n → PTy N) : LExpr N n → Option (PTy N)
  | .var i => some (Γ i)
  | .const B _ => some (PTy.builtin B)
  | .lit L => some L
  | .cast S _ => some S
  | _ => none

/-- the expression is of a safe type: a variable, literal or cast of a safe type occurs in it (outside the operands of casts) -/
def hasSafe {N : Names} (Γ : Fin n → PTy N) : LExpr N n → Bool
  | .var i => (Γ i).isSafe
  | .const _ _ => false
  | .lit L => L.isSafe
  | .bin _ a b => hasSafe Γ a || hasSafe Γ b
  | .neg a => hasSafe Γ a
  | .pos a => hasSafe Γ a
  | .cast S _ => S.isSafe

/-- bitwise operators on operands that are declared without negative values -/
def nonneg {N : Names} (Γ : Fin n → PTy N) : LExpr N n → Bool
  | .bin (.bit _) a b => nonneg Γ a && nonneg Γ b
  | .var i => decide (0 ≤ (Γ i).opd.lo)
  | .const B _ => !B.signed
  | .lit L => decide (0 ≤ L.opd.lo)
  | .cast S _ => decide (0 ≤ S.opd.lo)
  | _ => false

/-- `t << u`: the type of `t` has a positive value; and either no negative values on both sides, or counts from zero to the
width of the (promoted) type -/
def ShlTypes (T U : Opd) : Prop :=
  0 < T.hi ∧ ((0 ≤ T.lo ∧ 0 ≤ U.lo) ∨ (U.lo ≤ 0 ∧ (promote T.base).digits ≤ U.hi))

/-- `t >> u`: the type of `t` is signed (after promotion), or all counts are from 0 to 15; the types have admissible values -/
def ShrTypes (T U : Opd) : Prop :=
  0 ≤ T.hi ∧ 0 ≤ U.hi ∧ U.lo ≤ 15 ∧ ((promote T.base).signed = true ∨ (0 ≤ U.lo ∧ U.hi ≤ 15))

/-- `t % u`: the range of `u` begins with zero, or is positive and the range of `t` ends on each side before the largest divisor or
just before one of its multiples; and the range of `t` is within that of the common type, without its minimum if it is signed -/
def ModTypes (T U : Opd) : Prop :=
  (U.lo = 0 ∨ (0 < U.lo ∧ T.lo ≤ 0 ∧ 0 ≤ T.hi ∧ (T.hi < U.hi ∨ U.hi ∣ T.hi + 1) ∧ (-T.lo < U.hi ∨ U.hi ∣ -T.lo + 1))) ∧
  (0 ≤ T.lo ∨ ((uac T.base U.base).signed = true ∧ (uac T.base U.base).min < T.lo))

instance (T U : Opd) : Decidable (ModTypes T U) :=
  inferInstanceAs (Decidable ((_ ∨ (_ ∧ _ ∧ _ ∧ (_ ∨ _) ∧ (_ ∨ _))) ∧ (_ ∨ (_ ∧ _))))
instance (T U : Opd) : Decidable (ShlTypes T U) := inferInstanceAs (Decidable (_ ∧ (_ ∨ _)))
instance (T U : Opd) : Decidable (ShrTypes T U) := inferInstanceAs (Decidable (_ ∧ _ ∧ _ ∧ (_ ∨ _)))

/-- expressions of the subset -/
def PlainE {N : Names} (Γ : Fin n → PTy N) : LExpr N n → Prop
  | .var _ => True
  | .const B c => B.Ok ∧ B.In c
  | .lit L => PTy.Wf L ∧ ∃ b, L.opd.kind = .lit b
  | .bin (.ar o) a b => PlainE Γ a ∧ PlainE Γ b ∧ (hasSafe Γ a || hasSafe Γ b) = true ∧
      (o = .mod → ∃ T U, declared Γ a = some T ∧ declared Γ b = some U ∧ ModTypes T.opd U.opd)
  | .bin (.bit _) a b => PlainE Γ a ∧ PlainE Γ b ∧ (hasSafe Γ a || hasSafe Γ b) = true ∧ (nonneg Γ a && nonneg Γ b) = true
  | .bin .shl a b => PlainE Γ a ∧ PlainE Γ b ∧ (hasSafe Γ a || hasSafe Γ b) = true ∧
      ∃ T U, declared Γ a = some T ∧ declared Γ b = some U ∧ ShlTypes T.opd U.opd
  | .bin .shr a b => PlainE Γ a ∧ PlainE Γ b ∧ (hasSafe Γ a || hasSafe Γ b) = true ∧
      ∃ T U, declared Γ a = some T ∧ declared Γ b = some U ∧ ShrTypes T.opd U.opd
  | .neg a => PlainE Γ a ∧ hasSafe Γ a = true
  | .pos a => PlainE Γ a
  | .cast S a => PlainE Γ a ∧ PTy.Wf S ∧ NotLit S.opd ∧ (S.isSafe || hasSafe Γ a) = true

/-- conditions of the subset -/
def PlainC {N : Names} (Γ : Fin n → PTy N) : LCond N n → Prop
  | .cmp _ a b => PlainE Γ a ∧ PlainE Γ b ∧ (hasSafe Γ a || hasSafe Γ b) = true
  | .truth a => PlainE Γ a
  | .not a => PlainC Γ a
  | .and a b => PlainC Γ a ∧ PlainC Γ b
  | .or a b => PlainC Γ a ∧ PlainC Γ b

/-- programs of the subset: variables that are read have the whole range of a safe type that is not a character type (C37); what
is written is of a safe type -/
def PlainS {N : Names} (Γ : Fin n → PTy N) : LStmt N n → Prop
  | .skip => True
  | .assign i e => PlainE Γ e ∧ ((Γ i).isSafe || hasSafe Γ e) = true
  | .opAssign o i e => PlainE Γ (.bin o (.var i) e)
  | .inc i => (Γ i).isSafe = true
  | .dec i => (Γ i).isSafe = true
  | .input i => (Γ i).isSafe = true ∧ (Γ i).opd.base.lg ≠ 0 ∧ (Γ i).opd.lo = (Γ i).opd.base.min ∧
      (Γ i).opd.hi = (Γ i).opd.base.max
  | .output e => PlainE Γ e ∧ hasSafe Γ e = true
  | .seq a b => PlainS Γ a ∧ PlainS Γ b
  | .ite c a b => PlainC Γ c ∧ PlainS Γ a ∧ PlainS Γ b
  | .while c a => PlainC Γ c ∧ PlainS Γ a
  | .tryCatch a b => PlainS Γ a ∧ PlainS Γ b

end
end Verif.Spec

namespace Verif.Props
open Spec Lang

section
variable [Arch]

/-! ### the types of the results are well-formed -/

private theorem resTy_wf {f : ITy → Itv CR → Itv CR → Out (Itv CR)} {R : ITy} (hR : R.Ok) {T U : Opd} {ri : Itv CR}
    (e : resItv f R T U = .ret ri) (p1 : Proper R ri.l) (p2 : Proper R ri.u)
    (h : ∀ v w, ri.l = .ok v → ri.u = .ok w → v ≤ w) : ∃ S, resTy f R T U = .ret S ∧ S.Wf ∧ S.kind = .safe := by
  have key : ∃ v, Held ri v ∧ R.In v := by
    rcases hl : ri.l with v | x
    · rw [hl] at p1
      exact ⟨v, ⟨fun _ h' => by rw [hl] at h'; cases h'; exact le_refl _, fun w hw => h v w hl hw⟩, p1⟩
    · rcases hu : ri.u with w | y
      · rw [hu] at p2
        exact ⟨w, ⟨fun _ h' => (by rw [hl] at h'; cases h'), fun _ h' => (by rw [hu] at h'; cases h'; exact le_refl _)⟩, p2⟩
      · exact ⟨0, ⟨fun _ h' => (by rw [hl] at h'; cases h'), fun _ h' => (by rw [hu] at h'; cases h')⟩, R.in_zero⟩
  obtain ⟨v, hv, hi⟩ := key
  obtain ⟨S, h1, h2, h3, _⟩ := resTy_has hR e p1 p2 hv hi
  exact ⟨S, h1, h2, h3⟩

private theorem ordered {R : ITy} {a : CR} {l : List CR} (hp : ∀ c ∈ a :: l, Proper R c) :
    ∃ m M, minmax (crLtB R) (a :: l) = .ret (m, M) ∧ Proper R m ∧ Proper R M ∧ ∀ v w, m = .ok v → M = .ok w → v ≤ w := by
  obtain ⟨m, M, e, hm, hM, hh⟩ := minmax_cr a l hp
  refine ⟨m, M, e, hp m hm, hp M hM, ?_⟩
  rintro v w rfl rfl
  rcases hh with ⟨va, h1, h2⟩ | ⟨_, _, vM, hh⟩
  · rw [← h1] at h2; cases h2; exact le_refl _
  · exact (hh _ hM vM).1

private theorem div_wf {R : ITy} {t u : Itv CR} (ptl : Proper R t.l) (ptu : Proper R t.u) (pul : Proper R u.l)
    (puu : Proper R u.u) :
    ∃ ri, divItv R t u = .ret ri ∧ Proper R ri.l ∧ Proper R ri.u ∧ ∀ v w, ri.l = .ok v → ri.u = .ok w → v ≤ w := by
  obtain ⟨c1, e1, p1, g1⟩ := crDiv_total ptl pul
  obtain ⟨c4, e4, p4, _⟩ := crDiv_total ptl puu
  obtain ⟨c5, e5, p5, _⟩ := crDiv_total ptu pul
  obtain ⟨c8, e8, p8, _⟩ := crDiv_total ptu puu
  by_cases h : thenCond R u = true
  · obtain ⟨m, M, e, h1, h2, h3⟩ := ordered (R := R) (a := c1) (l := [c4, c5, c8]) (by
      intro c hc; simp at hc; rcases hc with rfl | rfl | rfl | rfl <;> assumption)
    refine ⟨⟨m, M⟩, ?_, h1, h2, h3⟩
    unfold divItv divModItv
    change (if thenCond R u = true then _ else _) = _
    rw [if_pos h]
    simp only [itvDiv, excludes_of_then h, assertThat, if_true, Out.ret_bind, corners, minmax4, e1, e4, e5, e8, e]
  · obtain ⟨c2, e2, p2, _⟩ := crDiv_total ptl (minus_one_proper R)
    obtain ⟨c3, e3, p3, _⟩ := crDiv_total (R := R) (d := .ok 1) ptl R.in_one
    obtain ⟨c6, e6, p6, _⟩ := crDiv_total ptu (minus_one_proper R)
    obtain ⟨c7, e7, p7, _⟩ := crDiv_total (R := R) (d := .ok 1) ptu R.in_one
    obtain ⟨m, M, e, h1, h2, h3⟩ := ordered (R := R) (a := c1) (l := [c2, c3, c4, c5, c6, c7, c8]) (by
      intro c hc; simp at hc; rcases hc with rfl | rfl | rfl | rfl | rfl | rfl | rfl | rfl <;> assumption)
    refine ⟨⟨m, M⟩, ?_, h1, h2, h3⟩
    unfold divItv divModItv
    change (if thenCond R u = true then _ else _) = _
    rw [if_neg h]
    simp only [Out.ret_bind, e1, e2, e3, e4, e5, e6, e7, e8, e]

/-- The types of sums, differences, products and quotients are well-formed: bounds in the base type, not in the wrong order. -/
theorem C95_type (pp : PP) (hpp : pp.Wf) (o : Arith) (ho : o ≠ .mod) (T U : Opd) (hT : T.Wf) (hU : U.Wf) :
    (∃ S, arithTy pp o T U = .ret S ∧ S.Wf ∧ S.kind = .safe) ∨ arithTy pp o T U = .fault .illFormed := by
  unfold arithTy
  rcases PP.result_total hpp (op := o.binOp) (by cases o <;> decide) hT hU with ⟨R, e, hR⟩ | e
  swap
  · rw [e]; exact Or.inr rfl
  rw [e, Out.ret_bind]
  left
  have t1 := hT.2.2.2.1; have u1 := hU.2.2.2.1
  cases o with
  | add =>
    obtain ⟨ri, er, p1, p2, h⟩ := resItv_add (R := R) hT hU
    refine resTy_wf hR er p1 p2 fun v w hv hw => ?_
    obtain ⟨_, _, _, _, _, _, g⟩ := h ⟨v, hv⟩ ⟨w, hw⟩
    rw [g] at hv hw; cases hv; cases hw; omega
  | sub =>
    obtain ⟨ri, er, p1, p2, h⟩ := resItv_sub (R := R) hT hU
    refine resTy_wf hR er p1 p2 fun v w hv hw => ?_
    obtain ⟨_, _, _, _, _, _, g⟩ := h ⟨v, hv⟩ ⟨w, hw⟩
    rw [g] at hv hw; cases hv; cases hw; omega
  | mul =>
    obtain ⟨ri, er, p1, p2, h⟩ := resItv_mul hR hT hU
    refine resTy_wf hR er p1 p2 fun v w hv hw => ?_
    rcases h v w hv hw with ⟨_, _, _, _, g⟩ | ⟨a, b, _⟩
    · have := g T.lo U.lo ⟨le_refl _, t1⟩ ⟨le_refl _, u1⟩; omega
    · omega
  | div =>
    obtain ⟨ri, g, p1, p2, h⟩ := div_wf (R := R) (t := ⟨castTo R T.lo, castTo R T.hi⟩) (u := ⟨castTo R U.lo, castTo R U.hi⟩)
      castTo_proper castTo_proper castTo_proper castTo_proper
    exact resTy_wf hR (resItv_of (f := divItv) hT hU g) p1 p2 h
  | mod => exact absurd rfl ho

private theorem shlTypes_covered {p : EP} (hi : p.idb = .throw ∨ p.ae = .trap) {T U : Opd} (h : ShlTypes T U) :
    OpCovered .native p T U .shl := by
  refine ⟨Or.inl hi, fun R e => ?_⟩
  cases e
  refine ⟨h.1, h.2.imp_right fun g => ?_⟩
  show 0 ≤ U.hi ∧ (promote T.base).max < T.hi * 2 ^ U.hi.toNat
  have g2 := g.2
  refine ⟨by omega, ?_⟩
  have a := two_pow_le (show (promote T.base).digits ≤ U.hi.toNat by omega)
  have b : (2 : Int) ^ U.hi.toNat ≤ T.hi * 2 ^ U.hi.toNat := by
    have := h.1
    have p := two_pow_pos U.hi.toNat
    nlinarith
  unfold ITy.max
  omega

private theorem bits16 (T : ITy) : 15 ≤ (promote T).digits ∧ 16 ≤ (promote T).bits ∧ ∀ x, 0 ≤ x → x ≤ 15 → (promote T).In x := by
  have hl : 1 ≤ (promote T).lg := Nat.le_trans Arch.int16 (promote_lg' T)
  have hb := ITy.bits_le (T := i16) (U := promote T) (by simpa [i16] using hl)
  have h3 : i16.bits = 16 := rfl
  refine ⟨by unfold ITy.digits; split <;> omega, by omega, fun x h0 h1 => promote_in_small h0 (by omega)⟩

private theorem shrTypes_covered {p : EP} (hi : p.idb = .throw ∨ p.ae = .trap) {T U : Opd} (h : ShrTypes T U) :
    OpCovered .native p T U .shr := by
  refine ⟨Or.inl hi, fun R e => ?_⟩
  cases e
  obtain ⟨_, _, _, h⟩ := h
  rcases h with h | ⟨h1, h2⟩
  · exact ⟨fun g => (by have g := g.1; change (promote T.base).signed = false at g; rw [h] at g; cases g),
      fun u _ g => (by have g := g.1; change (promote T.base).signed = false at g; rw [h] at g; cases g)⟩
  · refine ⟨fun g => by have := g.2.1; omega, fun u hu g => ?_⟩
    have g := g.2.2; have b := (bits16 T.base).2.1; have := hu.2
    change u = ((promote T.base).bits : Int) at g
    omega

private theorem shl_type {T U : Opd} (hT : T.Wf) (hU : U.Wf) (h : ShlTypes T U) :
    ∃ S, shlTy .native T U = .ret S ∧ S.Wf ∧ S.kind = .safe := by
  have hR := promote_ok hT.1
  have i1 := in_promote hT.2.1; have i2 := in_promote hT.2.2.1
  have t1 := hT.2.2.2.1; have u1 := hU.2.2.2.1
  obtain ⟨ri, er, p1, p2, f1, f2⟩ := shl_res hR hT hU
  refine resTy_wf hR er p1 p2 fun v w hv hw => ?_
  obtain ⟨h0, ⟨a, b⟩ | ⟨a, b⟩⟩ := h
  · have g := f1 h0 (by omega) w hw
    have k1 : (2 : Int) ^ U.lo.toNat ≤ 2 ^ U.hi.toNat := two_pow_le (by omega)
    have z := two_pow_pos U.lo.toNat
    have k : T.lo * 2 ^ U.lo.toNat ≤ T.hi * 2 ^ U.hi.toNat := by
      have : T.lo * 2 ^ U.lo.toNat ≤ T.hi * 2 ^ U.lo.toNat := by nlinarith
      have : T.hi * 2 ^ U.lo.toNat ≤ T.hi * 2 ^ U.hi.toNat := by nlinarith
      omega
    have k0 : 0 ≤ T.lo * 2 ^ U.lo.toNat := by positivity
    have hm := (promote T.base).min_nonpos
    obtain ⟨q1, q2⟩ := f2 T.lo U.lo ⟨le_refl _, t1⟩ ⟨le_refl _, u1⟩ i1 ⟨by omega, by omega⟩ b (fun h => by omega)
    exact le_trans (q1 v hv) (q2 w hw)
  · have hu0 : U.Has 0 := ⟨a, by omega⟩
    obtain ⟨q1, q2⟩ := f2 T.hi 0 ⟨t1, le_refl _⟩ hu0 i2 (by simpa using i2) (le_refl _) (fun _ => rfl)
    exact le_trans (q1 v hv) (q2 w hw)

private theorem shr_type {T U : Opd} (hT : T.Wf) (hU : U.Wf) (h : ShrTypes T U) :
    (∃ S, shrTy .native T U = .ret S ∧ S.Wf ∧ S.kind = .safe) ∨ shrTy .native T U = .fault .illFormed := by
  have hR := promote_ok hT.1
  have i2 := in_promote hT.2.2.1
  have t1 := hT.2.2.2.1; have u1 := hU.2.2.2.1
  rcases shr_res hR hT hU with er | ⟨ri, er, p1, p2, f, _⟩
  · right; show resTy itvShr (promote T.base) T U = _; unfold resTy; rw [er]; rfl
  · left
    obtain ⟨h1, h2, h3, h4⟩ := h
    refine resTy_wf hR er p1 p2 fun v w hv hw => ?_
    obtain ⟨q1, q2⟩ := f T.hi (max 0 U.lo) ⟨t1, le_refl _⟩ ⟨by omega, by omega⟩ i2 ((bits16 T.base).2.2 _ (by omega) (by omega))
      h1 (by omega) (fun g => by
        rcases h4 with h4 | h4
        · have := g.1; rw [h4] at this; cases this
        · have := g.2.1; omega)
    exact le_trans (q1 v hv) (q2 w hw)

private theorem mod_zero {R : ITy} {t : Itv CR} {w : CR} (p1 : Proper R t.l) (p2 : Proper R t.u) (p3 : Proper R w)
    (h : ¬ thenCond R ⟨.ok 0, w⟩ = true) :
    modItv R t ⟨.ok 0, w⟩ = .ret ⟨.err .range_error, .err .range_error⟩ := by
  have p0 : Proper R (.ok 0) := R.in_zero
  have z : ∀ c, crMod R c (.ok 0) = .ret (.err .range_error) := fun c => by
    unfold crMod
    rw [prodFlag_ok R.in_zero]
    generalize prodFlag R c = f
    cases f <;> rfl
  obtain ⟨c2, e2, q2, _⟩ := crMod_total p1 (minus_one_proper R)
  obtain ⟨c3, e3, q3, _⟩ := crMod_total (R := R) (d := .ok 1) p1 R.in_one
  obtain ⟨c4, e4, q4, _⟩ := crMod_total p1 p3
  obtain ⟨c6, e6, q6, _⟩ := crMod_total p2 (minus_one_proper R)
  obtain ⟨c7, e7, q7, _⟩ := crMod_total (R := R) (d := .ok 1) p2 R.in_one
  obtain ⟨c8, e8, q8, _⟩ := crMod_total p2 p3
  obtain ⟨m, M, e, _, _, hh⟩ := minmax_cr (R := R) (.err .range_error) [c2, c3, c4, .err .range_error, c6, c7, c8] (by
    have := proper_range R
    intro c hc; simp at hc; rcases hc with rfl | rfl | rfl | rfl | rfl | rfl | rfl | rfl <;> assumption)
  have v : Vague (.err .range_error) := ⟨_, rfl, by decide, by decide⟩
  rcases hh with ⟨_, rfl, rfl⟩ | ⟨h', _⟩
  swap
  · exact absurd v h'
  unfold modItv divModItv
  change (if thenCond R ⟨.ok 0, w⟩ = true then _ else _) = _
  rw [if_neg h]
  simp only [Out.ret_bind, z, e2, e3, e4, e6, e7, e8, e]

private theorem mod_type {T U : Opd} (hT : T.Wf) (hU : U.Wf) (h : ModTypes T U) :
    ∃ S, arithTy .native .mod T U = .ret S ∧ S.Wf ∧ S.kind = .safe ∧
      ∀ t u, T.Has t → U.Has u → u ≠ 0 → S.Has (t.tmod u) := by
  have hR := uac_ok hT.1 hU.1
  obtain ⟨f1, f2⟩ := native_fits hT hU
  obtain ⟨h0, h1⟩ := h
  have hm := (uac T.base U.base).min_nonpos
  have it : ∀ t, T.Has t → (uac T.base U.base).In t := fun t ht => by
    have := ht.1; have := ht.2; have := f1.1
    refine ⟨?_, by omega⟩
    rcases h1 with h1 | ⟨_, h1⟩ <;> omega
  have t1 := hT.2.2.2.1; have u1 := hU.2.2.2.1
  rcases h0 with h0 | ⟨k1, k2, k3, k4⟩
  swap
  · have iT := And.intro (it T.lo ⟨le_refl _, t1⟩) (it T.hi ⟨t1, le_refl _⟩)
    have iU : (uac T.base U.base).In U.hi := ⟨by omega, f2.1⟩
    have e := C29_mod_type .native T U hT hU _ rfl iT iU k2 k3 k1
    obtain ⟨S, e', h⟩ := (C29_mod_iff .native T U hT hU _ rfl iT iU k2 k3 k1).2 k4
    rw [e] at e'
    obtain rfl := Out.ret.inj e'
    have b1 := Int.tmod_nonneg U.lo k3; have b2 := Int.tmod_nonneg U.hi k3
    have a1 := Int.tmod_nonneg U.lo (show 0 ≤ -T.lo by omega)
    have a2 := Int.tmod_nonneg U.hi (show 0 ≤ -T.lo by omega)
    rw [Int.neg_tmod] at a1 a2
    refine ⟨_, e, ⟨hR, ?_, ?_, ?_, nofun, nofun⟩, rfl, fun t u ht hu _ => h t u ht hu⟩
    · show (uac T.base U.base).In (min _ _)
      rcases Int.le_total (T.lo.tmod U.lo) (T.lo.tmod U.hi) with g | g
      · rw [Int.min_eq_left g]; exact tmod_in iT.1
      · rw [Int.min_eq_right g]; exact tmod_in iT.1
    · show (uac T.base U.base).In (max _ _)
      rcases Int.le_total (T.hi.tmod U.lo) (T.hi.tmod U.hi) with g | g
      · rw [Int.max_eq_right g]; exact tmod_in iT.2
      · rw [Int.max_eq_left g]; exact tmod_in iT.2
    · show min (T.lo.tmod U.lo) (T.lo.tmod U.hi) ≤ max (T.hi.tmod U.lo) (T.hi.tmod U.hi)
      omega
  have er := resItv_of (f := modItv) hT hU (by
    rw [h0, castTo_of_in (uac T.base U.base).in_zero]
    exact mod_zero castTo_proper castTo_proper castTo_proper fun h => by
      have h' : thenCond (uac T.base U.base) ⟨castTo (uac T.base U.base) U.lo, castTo (uac T.base U.base) U.hi⟩ = true := by
        rw [h0, castTo_of_in (uac T.base U.base).in_zero]; exact h
      have := (then_fits hU.2.2.2.1 f2 h').2
      have := hU.2.2.2.1
      omega)
  have px := proper_range (uac T.base U.base)
  have tin : ∀ v, (uac T.base U.base).In v → ∃ S, arithTy .native .mod T U = .ret S ∧ S.Wf ∧ S.kind = .safe ∧ S.Has v := fun v hv => by
    obtain ⟨S, g1, g2, g3, _, g5⟩ := resTy_has hR er px px (v := v) ⟨nofun, nofun⟩ hv
    exact ⟨S, g1, g2, g3, g5⟩
  obtain ⟨S, g1, g2, g3, _⟩ := tin 0 (ITy.in_zero _)
  refine ⟨S, g1, g2, g3, fun t u ht hu hu0 => ?_⟩
  obtain ⟨S', g1', _, _, g⟩ := tin (t.tmod u) (tmod_in (it t ht))
  rw [g1] at g1'; cases g1'; exact g

private theorem bit_type {b : Bitwise} {T U : Opd} (hT : T.Wf) (hU : U.Wf) (zT : 0 ≤ T.lo) (zU : 0 ≤ U.lo) :
    (∃ S, bitwiseTy .native b T U = .ret S ∧ S.Wf ∧ S.kind = .safe ∧ 0 ≤ S.lo) := by
  have t1 := hT.2.2.2.1; have u1 := hU.2.2.2.1
  obtain ⟨f1, f2⟩ := native_fits hT hU
  obtain ⟨_, S, _, h1, h2, h3, _⟩ := C27_bounds_partial .native b T U (uac T.base U.base) (uac_ok hT.1 hU.1) (by cases b <;> rfl) zT zU
    f1.1 f2.1 T.lo U.lo ⟨le_refl _, t1⟩ ⟨le_refl _, u1⟩
  refine ⟨S, h1, h2, h3, ?_⟩
  unfold bitwiseTy bitTy at h1
  rcases hr : PP.native.result b.binOp T U with R | x | x <;> rw [hr] at h1
  · simp only [Out.ret_bind] at h1
    generalize Out.static (roundOut R.toUnsigned (b.pick (conv R.toUnsigned T.hi) (conv R.toUnsigned U.hi))) = o at h1
    cases o with
    | ret m =>
      simp only [Out.ret_bind] at h1
      split at h1
      · rw [← Out.ret.inj h1]; exact le_refl _
      · cases h1
    | thrown => cases h1
    | fault => cases h1
  · cases h1
  · cases h1

private theorem bit_op {p : EP} {b : Bitwise} {T U : Opd} (hT : T.Wf) (hU : U.Wf) (zT : 0 ≤ T.lo) (zU : 0 ≤ U.lo) :
    OpCovered .native p T U (.bit b) := by
  intro R e
  obtain ⟨f1, f2⟩ := native_fits hT hU
  have e : uac T.base U.base = R := by cases b <;> exact Out.ret.inj e
  subst e
  exact ⟨uac_ok hT.1 hU.1, Or.inl ⟨zT, zU, f1.1, f2.1⟩⟩

/-! ### expressions -/

private theorem bin_ty {N : Names} (hN : Plainly N) {o : Op2} {T U W : PTy N} (hs : (T.isSafe || U.isSafe) = true)
    (h : ∀ S, o.safeTy .native T.opd U.opd = .ret S → S.Wf ∧ S.kind = .safe) (e : pBinTy o T U = .ret W) :
    PTy.Wf W ∧ W.isSafe = true ∧ o.safeTy .native T.opd U.opd = .ret W.opd := by
  unfold pBinTy at e
  rw [if_pos hs] at e
  rcases common_st T.pr U.pr with ⟨q, eq⟩ | eq
  · rcases common_st T.ex U.ex with ⟨x, ee⟩ | ee
    · rw [eq, ee] at e
      simp only [Out.ret_bind] at e
      rw [hN.2.2 q] at e
      rcases hS : o.safeTy .native T.opd U.opd with S | y | y <;> rw [hS] at e
      · obtain ⟨h1, h2⟩ := h S hS
        simp only [Out.ret_bind] at e
        rw [← Out.ret.inj e]
        refine ⟨⟨h1, fun g => ?_, fun _ => ⟨nofun, nofun⟩, fun b g => ?_⟩, ?_, rfl⟩
        · dsimp only at g; rw [h2] at g; cases g
        · dsimp only at g; rw [h2] at g; cases g
        · simp [PTy.isSafe, h2]
      · cases e
      · cases e
    · rw [eq, ee] at e; cases e
  · rw [eq] at e; cases e

omit [Arch] in
private theorem of_or {α : Type} {o : Out α} {P : α → Prop} {f : Fault} (h : (∃ S, o = .ret S ∧ P S) ∨ o = .fault f) :
    ∀ S, o = .ret S → P S := by
  rintro S rfl
  rcases h with ⟨S', h, hp⟩ | h
  · cases h; exact hp
  · cases h

/-- what is known of the type of an expression of the subset -/
private theorem ty_plain {N : Names} (hN : Plainly N) {n : Nat} {Γ : Fin n → PTy N} (hΓ : GoodVars Γ) :
    ∀ (e : LExpr N n) (T : PTy N), PlainE Γ e → e.ty Γ = .ret T →
      PTy.Wf T ∧ T.isSafe = hasSafe Γ e ∧ (nonneg Γ e = true → 0 ≤ T.opd.lo) ∧ ∀ S, declared Γ e = some S → T = S
  | .var i, T, _, h => by
    cases h
    exact ⟨(hΓ i).1, rfl, fun g => by simpa [nonneg] using g, fun S g => by cases g; rfl⟩
  | .const B c, T, hp, h => by
    cases h
    refine ⟨pbuiltin_wf hp.1, rfl, fun g => ?_, fun S g => by cases g; rfl⟩
    show 0 ≤ B.min
    simp only [nonneg] at g
    have e := ITy.min_eq B
    cases hs : B.signed
    · rw [hs] at e; simp at e; omega
    · rw [hs] at g; cases g
  | .lit L, T, hp, h => by
    cases h
    exact ⟨hp.1, rfl, fun g => by simpa [nonneg] using g, fun S g => by cases g; rfl⟩
  | .cast S a, T, hp, h => by
    cases h
    exact ⟨hp.2.1, rfl, fun g => by simpa [nonneg] using g, fun S g => by cases g; rfl⟩
  | .pos a, T, hp, h => by
    simp only [LExpr.ty] at h
    rcases ha : a.ty Γ with A | x | x <;> rw [ha] at h
    · obtain ⟨h1, h2, _⟩ := ty_plain hN hΓ a A hp ha
      simp only [Out.ret_bind] at h
      rw [← Out.ret.inj h]
      refine ⟨(pos_good h1 ⟨le_refl _, h1.1.2.2.2.1⟩).1, ?_, nofun, nofun⟩
      simp only [hasSafe, ← h2]
      unfold posTyOf PTy.isSafe
      split
      · rename_i g; simp [g, PTy.builtin, Opd.ofBuiltin]
      · rfl
    · cases h
    · cases h
  | .neg a, T, hp, h => by
    simp only [LExpr.ty] at h
    rcases ha : a.ty Γ with A | x | x <;> rw [ha] at h
    · obtain ⟨h1, h2, _⟩ := ty_plain hN hΓ a A hp.1 ha
      simp only [Out.ret_bind] at h
      have hs : A.isSafe = true := h2.trans hp.2
      have key : PTy.Wf T ∧ T.isSafe = true := by
        unfold negTyOf at h
        rcases hk : A.opd.kind with _ | _ | b <;> rw [hk] at h <;> dsimp only at h
        · simp [PTy.isSafe, hk] at hs
        · obtain ⟨g1, g2, _⟩ := bin_ty hN (o := .ar .sub) (by rw [hs, Bool.or_true])
            (of_or (C95_type .native trivial .sub nofun _ _ (wf_builtin tInt_ok) h1.1)) h
          exact ⟨g1, g2⟩
        · have e1 := h1.1.2.2.2.2.2 b hk
          have eT : A.opd = ⟨A.opd.base, A.opd.lo, A.opd.lo, .lit b⟩ := by
            rcases h : A.opd with ⟨B, l, u, k⟩
            rw [h] at e1 hk; dsimp only at e1 hk ⊢; subst e1 hk; rfl
          rw [eT, C40_minus _ _ _ h1.1.2.1] at h
          split at h
          · rename_i g
            simp only [Out.ret_bind] at h
            rw [← Out.ret.inj h]
            refine ⟨⟨⟨h1.1.1, g, g, le_refl _, nofun, fun _ _ => rfl⟩, nofun, nofun, fun c h => ?_⟩, rfl⟩
            cases h
            exact h1.2.2.2 b hk
          · cases h
      exact ⟨key.1, by simp only [hasSafe]; rw [key.2, hp.2], nofun, nofun⟩
    · cases h
    · cases h
  | .bin o a b, T, hp, h => by
    have hp' : PlainE Γ a ∧ PlainE Γ b ∧ (hasSafe Γ a || hasSafe Γ b) = true := by
      cases o <;> exact ⟨hp.1, hp.2.1, hp.2.2.1⟩
    simp only [LExpr.ty] at h
    rcases ha : a.ty Γ with A | x | x <;> rw [ha] at h
    rotate_left
    · cases h
    · cases h
    rcases hb : b.ty Γ with B | x | x <;> rw [hb] at h
    rotate_left
    · cases h
    · cases h
    simp only [Out.ret_bind] at h
    obtain ⟨a1, a2, a3, a4⟩ := ty_plain hN hΓ a A hp'.1 ha
    obtain ⟨b1, b2, b3, b4⟩ := ty_plain hN hΓ b B hp'.2.1 hb
    have hs : (A.isSafe || B.isSafe) = true := by rw [a2, b2]; exact hp'.2.2
    have safe : hasSafe Γ (.bin o a b) = true := hp'.2.2
    cases o with
    | ar o =>
      obtain ⟨g1, g2, _⟩ := bin_ty hN (o := .ar o) hs (fun S e => by
        by_cases hm : o = .mod
        · subst hm
          obtain ⟨A', B', q1, q2, q3⟩ := hp.2.2.2 rfl
          cases a4 _ q1; cases b4 _ q2
          obtain ⟨S', k1, k2, k3, _⟩ := mod_type a1.1 b1.1 q3
          change arithTy .native .mod A.opd B.opd = .ret S at e
          rw [k1] at e; cases e; exact ⟨k2, k3⟩
        · exact of_or (C95_type .native trivial o hm _ _ a1.1 b1.1) S e) h
      exact ⟨g1, g2.trans safe.symm, nofun, nofun⟩
    | bit o =>
      have z : nonneg Γ a = true ∧ nonneg Γ b = true := by simpa using hp.2.2.2
      obtain ⟨S, k1, k2, k3, k4⟩ := bit_type (b := o) a1.1 b1.1 (a3 z.1) (b3 z.2)
      obtain ⟨g1, g2, g3⟩ := bin_ty hN (o := .bit o) hs (fun S' e => by
        change bitwiseTy .native o A.opd B.opd = .ret S' at e
        rw [k1] at e; cases e; exact ⟨k2, k3⟩) h
      refine ⟨g1, g2.trans safe.symm, fun _ => ?_, nofun⟩
      change bitwiseTy .native o A.opd B.opd = .ret T.opd at g3
      rw [k1] at g3; rw [← Out.ret.inj g3]; exact k4
    | shl =>
      obtain ⟨_, _, _, A', B', q1, q2, q3⟩ := hp
      cases a4 _ q1; cases b4 _ q2
      obtain ⟨S, k1, k2⟩ := shl_type a1.1 b1.1 q3
      obtain ⟨g1, g2, _⟩ := bin_ty hN (o := .shl) hs (fun S' e => by
        change shlTy .native A.opd B.opd = .ret S' at e
        rw [k1] at e; cases e; exact k2) h
      exact ⟨g1, g2.trans safe.symm, nofun, nofun⟩
    | shr =>
      obtain ⟨_, _, _, A', B', q1, q2, q3⟩ := hp
      cases a4 _ q1; cases b4 _ q2
      obtain ⟨g1, g2, _⟩ := bin_ty hN (o := .shr) hs (of_or (shr_type a1.1 b1.1 q3)) h
      exact ⟨g1, g2.trans safe.symm, nofun, nofun⟩

private theorem bin_covered {N : Names} (hN : Plainly N) {n : Nat} {Γ : Fin n → PTy N} (hΓ : GoodVars Γ) {o : Op2} {a b : LExpr N n}
    (hp : PlainE Γ (.bin o a b)) (A B : PTy N) (ha : a.ty Γ = .ret A) (hb : b.ty Γ = .ret B) : BinCovered o A B := by
  have hp' : PlainE Γ a ∧ PlainE Γ b ∧ (hasSafe Γ a || hasSafe Γ b) = true := by
    cases o <;> exact ⟨hp.1, hp.2.1, hp.2.2.1⟩
  obtain ⟨a1, a2, a3, a4⟩ := ty_plain hN hΓ a A hp'.1 ha
  obtain ⟨b1, b2, b3, b4⟩ := ty_plain hN hΓ b B hp'.2.1 hb
  have hs : (A.isSafe || B.isSafe) = true := by rw [a2, b2]; exact hp'.2.2
  refine ⟨by simpa using hs, fun q e _ _ => ?_⟩
  rw [hN.2.2 q]
  cases o with
  | ar o =>
    cases o with
    | div => exact native_div_covered a1.1 b1.1
    | mod =>
      obtain ⟨A', B', q1, q2, q3⟩ := hp.2.2.2 rfl
      cases a4 _ q1; cases b4 _ q2
      obtain ⟨S', k1, k2, k3, k4⟩ := mod_type a1.1 b1.1 q3
      refine ⟨fun R e => ?_, fun S e => ?_⟩
      · cases e
        refine ⟨⟨uac_digits_left _ _, uac_digits_right _ _⟩, fun gs gm => ?_⟩
        have g1 := gm.1
        change A.opd.lo ≤ (uac A.opd.base B.opd.base).min at g1
        change (uac A.opd.base B.opd.base).signed = true at gs
        have := ITy.min_eq (uac A.opd.base B.opd.base)
        rw [gs] at this
        have := (uac A.opd.base B.opd.base).max_ge
        rcases q3.2 with g | g
        · simp at *; omega
        · have := g.2; omega
      · rw [k1] at e; cases e; exact ⟨k2, k4⟩
    | _ => trivial
  | bit o =>
    have z : nonneg Γ a = true ∧ nonneg Γ b = true := by simpa using hp.2.2.2
    exact bit_op a1.1 b1.1 (a3 z.1) (b3 z.2)
  | shl =>
    obtain ⟨_, _, _, A', B', q1, q2, q3⟩ := hp
    cases a4 _ q1; cases b4 _ q2
    exact shlTypes_covered (hN.2.1 e) q3
  | shr =>
    obtain ⟨_, _, _, A', B', q1, q2, q3⟩ := hp
    cases a4 _ q1; cases b4 _ q2
    exact shrTypes_covered (hN.2.1 e) q3

private theorem e_covered {N : Names} (hN : Plainly N) {n : Nat} {Γ : Fin n → PTy N} (hΓ : GoodVars Γ) :
    ∀ e : LExpr N n, PlainE Γ e → ECovered Γ e
  | .var _, _ => trivial
  | .const _ _, h => h
  | .lit _, h => h
  | .bin o a b, h => by
    have h' : PlainE Γ a ∧ PlainE Γ b := by cases o <;> exact ⟨h.1, h.2.1⟩
    exact ⟨e_covered hN hΓ a h'.1, e_covered hN hΓ b h'.2, bin_covered hN hΓ h⟩
  | .neg a, h => ⟨e_covered hN hΓ a h.1, fun T e => (ty_plain hN hΓ a T h.1 e).2.1.trans h.2⟩
  | .pos a, h => e_covered hN hΓ a h
  | .cast S a, h => ⟨e_covered hN hΓ a h.1, fun T e => ⟨h.2.1, h.2.2.1, by
      have := (ty_plain hN hΓ a T h.1 e).2.1
      have g := h.2.2.2
      rw [← this] at g
      rcases Bool.or_eq_true _ _ |>.mp g with g | g
      · exact Or.inl g
      · exact Or.inr (Or.inl g)⟩⟩

private theorem c_covered {N : Names} (hN : Plainly N) {n : Nat} {Γ : Fin n → PTy N} (hΓ : GoodVars Γ) :
    ∀ c : LCond N n, PlainC Γ c → CCovered Γ c
  | .cmp _ a b, h => ⟨e_covered hN hΓ a h.1, e_covered hN hΓ b h.2.1, fun T U e e' => Or.inl (by
      have g := h.2.2
      rw [← (ty_plain hN hΓ a T h.1 e).2.1, ← (ty_plain hN hΓ b U h.2.1 e').2.1] at g
      simpa using g)⟩
  | .truth a, h => e_covered hN hΓ a h
  | .not a, h => c_covered hN hΓ a h
  | .and a b, h => ⟨c_covered hN hΓ a h.1, c_covered hN hΓ b h.2⟩
  | .or a b, h => ⟨c_covered hN hΓ a h.1, c_covered hN hΓ b h.2⟩

/-- The programs of the subset meet all conditions of the theorems on programs (C58 to C62, C66, C67, C71, C83, C84). -/
theorem C95_covered {N : Names} (hN : Plainly N) {n : Nat} (Γ : Fin n → PTy N) (hΓ : GoodVars Γ) :
    ∀ p : LStmt N n, PlainS Γ p → SCovered Γ p
  | .skip, _ => trivial
  | .assign i e, h => ⟨e_covered hN hΓ e h.1, fun T et => ⟨(hΓ i).1, (hΓ i).2, by
      have g := h.2
      rw [← (ty_plain hN hΓ e T h.1 et).2.1] at g
      rcases Bool.or_eq_true _ _ |>.mp g with g | g
      · exact Or.inl g
      · exact Or.inr (Or.inl g)⟩⟩
  | .opAssign o i e, h => by
    have h' : PlainE Γ e := by cases o <;> exact h.2.1
    exact ⟨e_covered hN hΓ e h', fun U eu => bin_covered hN hΓ h (Γ i) U rfl eu⟩
  | .inc i, h => h
  | .dec i, h => h
  | .input i, h => h
  | .output e, h => ⟨e_covered hN hΓ e h.1, fun T et => Or.inl ((ty_plain hN hΓ e T h.1 et).2.1.trans h.2)⟩
  | .seq a b, h => ⟨C95_covered hN Γ hΓ a h.1, C95_covered hN Γ hΓ b h.2⟩
  | .ite c a b, h => ⟨c_covered hN hΓ c h.1, C95_covered hN Γ hΓ a h.2.1, C95_covered hN Γ hΓ b h.2.2⟩
  | .while c a, h => ⟨c_covered hN hΓ c h.1, C95_covered hN Γ hΓ a h.2⟩
  | .tryCatch a b, h => ⟨C95_covered hN Γ hΓ a h.1, C95_covered hN Γ hΓ b h.2⟩

private theorem careful {N : Names} (hN : Plainly N) : Careful N := ⟨hN.1, fun q => by rw [hN.2.2 q]; trivial⟩

/-! ### what that means -/

/-- A program of the subset, started within the ranges of its variables: no undefined behaviour, no failed assertion, and all
variables stay in range, also after exceptions. -/
theorem C95_safe {N : Names} (hN : Plainly N) {n : Nat} (Γ : Fin n → PTy N) (hΓ : GoodVars Γ) (p : LStmt N n) (hp : PlainS Γ p)
    (f : Nat) (s s' : LState n) (o : Out Unit) (hs : Ranged Γ s.st) (h : p.exec Γ f s = some (o, s')) :
    NoUb o ∧ Ranged Γ s'.st :=
  C59_safe_partial (careful hN) Γ hΓ p (C95_covered hN Γ hΓ p hp) f s s' o hs h

/-- If it ends without an exception, it computed what the same program computes over the integers. -/
theorem C95_integers {N : Names} (hN : Plainly N) {n : Nat} (Γ : Fin n → PTy N) (hΓ : GoodVars Γ) (p : LStmt N n) (hp : PlainS Γ p)
    (f : Nat) (s s' : LState n) (hs : Ranged Γ s.st) (h : p.exec Γ f s = some (.ret (), s')) (hc : s'.caught = s.caught) :
    iexec f p (abst s) = some (some (abst s')) :=
  C60_refines_partial (careful hN) Γ hΓ p (C95_covered hN Γ hΓ p hp) f s s' hs h hc

/-- It throws an exception exactly if a value does not fit somewhere on the way. -/
theorem C95_exceptions {N : Names} (hN : Plainly N) {n : Nat} (Γ : Fin n → PTy N) (hΓ : GoodVars Γ) (p : LStmt N n)
    (hp : PlainS Γ p) (f : Nat) (s s' : LState n) (o : Out Unit) (hs : Ranged Γ s.st) (hi : StreamOk s.inp)
    (h : p.exec Γ f s = some (o, s')) (ha : o ≠ .fault .illFormed) :
    (o = .ret () ∧ s'.caught = s.caught) ↔ SFits Γ f p (abst s) :=
  C71_program_partial (careful hN) Γ hΓ f p s s' o (C95_covered hN Γ hΓ p hp) hs hi h ha

/-- If all policies trap and it compiles, it never throws, and computes what the program over the integers computes. -/
theorem C95_trap {N : Names} (hN : Plainly N) (ht : Trapping N) {n : Nat} (Γ : Fin n → PTy N) (hΓ : GoodVars Γ) (p : LStmt N n)
    (hp : PlainS Γ p) (hc : Compiles Γ p) (f : Nat) (s : LState n) (hs : Ranged Γ s.st) :
    (p.exec Γ f s = none ∧ iexec f p (abst s) = none) ∨
    (∃ s', p.exec Γ f s = some (.ret (), s') ∧ iexec f p (abst s) = some (some (abst s')) ∧ Ranged Γ s'.st ∧
      s'.caught = s.caught) :=
  C62_total_partial ht Γ hΓ f p s (C95_covered hN Γ hΓ p hp) hc hs

end

/-! ### a program of the subset -/

namespace Subset
attribute [local instance] lp64

def names : Names := ⟨Unit, Unit, inferInstance, inferInstance, fun _ => .native, fun _ => strictException⟩

theorem plainly : Plainly names := ⟨fun _ => Or.inl rfl, fun _ => Or.inl rfl, fun _ => rfl⟩

/-- `safe<unsigned>` -/
abbrev w : PTy names := ⟨Opd.ofSafe u32, some (), some ()⟩
/-- `safe_signed_range<-100, 1000>` of `int` -/
abbrev r : PTy names := ⟨Opd.range i32 (-100) 1000, some (), some ()⟩

def Γ : Fin 4 → PTy names := fun i => if i = 3 then r else w

theorem good : GoodVars Γ := by
  have hw : PTy.Wf w := ⟨by decide +kernel, nofun, fun _ => ⟨nofun, nofun⟩, nofun⟩
  have hr : PTy.Wf r := ⟨by decide +kernel, nofun, fun _ => ⟨nofun, nofun⟩, nofun⟩
  intro i
  unfold Γ
  split
  · exact ⟨hr, Or.inr rfl⟩
  · exact ⟨hw, Or.inr rfl⟩

/-- `std::cin >> x0 >> x1; while (x1 != 0) { x2 = x0 % x1; x0 = x1; x1 = x2; } try { x3 = -(x3 * x0 + x3 / x0); } catch (...) { --x3; }
x0 <<= x2; std::cout << ((x0 & x1) | x2) - x3 * (x1 << x2);` -/
def prog : LStmt names 4 :=
  .seq (.seq (.input 0) (.input 1)) (.seq
    (.while (.cmp .ne (.var 1) (.const i32 0))
      (.seq (.assign 2 (.bin (.ar .mod) (.var 0) (.var 1))) (.seq (.assign 0 (.var 1)) (.assign 1 (.var 2)))))
    (.seq (.tryCatch
        (.assign 3 (.neg (.bin (.ar .add) (.bin (.ar .mul) (.var 3) (.var 0)) (.bin (.ar .div) (.var 3) (.var 0)))))
        (.dec 3))
      (.seq (.opAssign .shl 0 (.var 2))
        (.output (.bin (.ar .sub) (.bin (.bit .bor) (.bin (.bit .band) (.var 0) (.var 1)) (.var 2))
          (.bin (.ar .mul) (.var 3) (.bin .shl (.var 1) (.var 2))))))))

theorem plain : PlainS Γ prog := by
  have m : ModTypes w.opd w.opd := by decide +kernel
  have l : ShlTypes w.opd w.opd := by decide +kernel
  have i : w.isSafe = true ∧ w.opd.base.lg ≠ 0 ∧ w.opd.lo = w.opd.base.min ∧ w.opd.hi = w.opd.base.max := by decide +kernel
  refine ⟨⟨i, i⟩, ⟨⟨trivial, ⟨by decide +kernel, by decide +kernel⟩, rfl⟩,
    ⟨⟨trivial, trivial, rfl, fun _ => ⟨w, w, rfl, rfl, m⟩⟩, rfl⟩, ⟨trivial, rfl⟩, trivial, rfl⟩,
    ⟨⟨⟨⟨⟨trivial, trivial, rfl, nofun⟩, ⟨trivial, trivial, rfl, nofun⟩, rfl, nofun⟩, rfl⟩, rfl⟩, rfl⟩,
    ⟨trivial, trivial, rfl, w, w, rfl, rfl, l⟩,
    ⟨⟨⟨trivial, trivial, rfl, rfl⟩, trivial, rfl, rfl⟩, ⟨trivial, ⟨trivial, trivial, rfl, w, w, rfl, rfl, l⟩, rfl, nofun⟩, rfl, nofun⟩, rfl⟩

-- no execution of this program has undefined behaviour, whatever is read
example (f : Nat) (s s' : LState 4) (o : Out Unit) (hs : Ranged Γ s.st) (h : prog.exec Γ f s = some (o, s')) :
    NoUb o ∧ Ranged Γ s'.st :=
  C95_safe plainly Γ good prog plain f s s' o hs h

-- it does run, with a result: for 48 and 36 the variable `x0` ends with 12
example : (match prog.exec Γ 20 ⟨fun _ => 0, ⟨"48 36".toList, false, false⟩, [], 0⟩ with
    | some (.ret (), s) => decide (s.st 0 = 12)
    | _ => false) = true := by decide +kernel

end Subset

section
attribute [local instance] lp64

-- types outside of the subset: `safe<int> << safe_unsigned_range<0, 5>`, `safe<unsigned> >> safe<int>`, `safe<int> % safe<int>`
example : ¬ ShlTypes (Opd.ofSafe i32) (Opd.range u8 0 5) ∧ ShlTypes (Opd.ofSafe i32) (Opd.ofSafe i8) ∧ ¬ ShrTypes (Opd.ofSafe u32) (Opd.ofSafe i32) ∧
    ¬ ModTypes (Opd.ofSafe i32) (Opd.ofSafe i32) ∧ ModTypes (Opd.ofSafe u32) (Opd.range i32 16 16) ∧
    ¬ ModTypes (Opd.ofSafe u32) (Opd.range i32 10 10) ∧ ModTypes (Opd.range i32 (-50) 59) (Opd.range i32 51 60) ∧ ShrTypes (Opd.ofSafe i32) (Opd.ofSafe i32) := by decide +kernel

end
end Verif.Props
