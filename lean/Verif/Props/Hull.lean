import Verif.HullSpec
import Verif.Props.TrapIff
import Verif.Props.Tight
import Verif.Props.Phase
import Verif.Props.Subset

/-!
Property C96: with a policy that traps, what the compiler does is interval analysis: it accepts a program if and only if interval
arithmetic on the declared ranges shows that nothing can overflow, divide by zero or leave the range of a variable.
-/

namespace Verif.Props
open Spec Lang

section
variable [Arch]

omit [Arch] in
/-- `span` is right: both ends are results, and no result is outside -/
theorem C96_span (o : Arith) (ho : o ≠ .mod) (a b c d : Int) (h1 : a ≤ b) (h2 : c ≤ d) :
    (∀ m M, span o a b c d = some (m, M) →
      (∀ x y, a ≤ x → x ≤ b → c ≤ y → y ≤ d → m ≤ math o x y ∧ math o x y ≤ M) ∧
      (∃ x y, a ≤ x ∧ x ≤ b ∧ c ≤ y ∧ y ≤ d ∧ math o x y = m) ∧ ∃ x y, a ≤ x ∧ x ≤ b ∧ c ≤ y ∧ y ≤ d ∧ math o x y = M) ∧
    (span o a b c d = none → o = .div ∧ c ≤ 0 ∧ 0 ≤ d) := by
  have pick : ∀ (p q r s : Int), (min (min p q) (min r s) = p ∨ min (min p q) (min r s) = q ∨ min (min p q) (min r s) = r ∨
      min (min p q) (min r s) = s) ∧ (max (max p q) (max r s) = p ∨ max (max p q) (max r s) = q ∨ max (max p q) (max r s) = r ∨
      max (max p q) (max r s) = s) := fun p q r s => by omega
  have ends : ∀ (f : Int → Int → Int) (v : Int), (v = f a c ∨ v = f a d ∨ v = f b c ∨ v = f b d) →
      ∃ x y, a ≤ x ∧ x ≤ b ∧ c ≤ y ∧ y ≤ d ∧ f x y = v := fun f v h => by
    rcases h with h | h | h | h
    · exact ⟨a, c, le_refl _, h1, le_refl _, h2, h.symm⟩
    · exact ⟨a, d, le_refl _, h1, h2, le_refl _, h.symm⟩
    · exact ⟨b, c, h1, le_refl _, le_refl _, h2, h.symm⟩
    · exact ⟨b, d, h1, le_refl _, h2, le_refl _, h.symm⟩
  cases o with
  | add =>
    refine ⟨fun m M h => ?_, nofun⟩
    cases h
    exact ⟨fun x y _ _ _ _ => ⟨by show _ ≤ x + y; omega, by show x + y ≤ _; omega⟩, ends _ _ (Or.inl rfl),
      ends _ _ (Or.inr (Or.inr (Or.inr rfl)))⟩
  | sub =>
    refine ⟨fun m M h => ?_, nofun⟩
    cases h
    exact ⟨fun x y _ _ _ _ => ⟨by show _ ≤ x - y; omega, by show x - y ≤ _; omega⟩, ends _ _ (Or.inr (Or.inl rfl)),
      ends _ _ (Or.inr (Or.inr (Or.inl rfl)))⟩
  | mul =>
    refine ⟨fun m M h => ?_, nofun⟩
    cases h
    refine ⟨fun x y g1 g2 g3 g4 => ⟨?_, ?_⟩, ends _ _ (pick _ _ _ _).1, ends _ _ (pick _ _ _ _).2⟩
    · exact corner_lower g1 g2 g3 g4 (by omega) (by omega) (by omega) (by omega)
    · exact corner_upper g1 g2 g3 g4 (by omega) (by omega) (by omega) (by omega)
  | div =>
    simp only [span]
    split
    · rename_i z
      exact ⟨nofun, fun _ => ⟨trivial, z⟩⟩
    · rename_i z
      refine ⟨fun m M h => ?_, nofun⟩
      cases h
      refine ⟨fun x y g1 g2 g3 g4 => ⟨?_, ?_⟩, ends _ _ (pick _ _ _ _).1, ends _ _ (pick _ _ _ _).2⟩
      · show _ ≤ x.tdiv y
        by_cases z' : d < 0
        · exact tdiv_lo_neg z' g2 g4 (by omega) (Or.inr ⟨c, g3, by omega⟩)
        · exact tdiv_lo_pos (show 0 < c by omega) g1 g3 (by omega) (Or.inr ⟨d, g4, by omega⟩)
      · show x.tdiv y ≤ _
        by_cases z' : d < 0
        · exact tdiv_hi_neg z' g1 g4 (by omega) (Or.inr ⟨c, g3, by omega⟩)
        · exact tdiv_hi_pos (show 0 < c by omega) g2 g3 (by omega) (Or.inr ⟨d, g4, by omega⟩)
  | mod => exact absurd rfl ho

private theorem all_in {R : ITy} {T : Opd} (h1 : R.In T.lo) (h2 : R.In T.hi) {x : Int} (hx : T.Has x) : R.In x :=
  ⟨le_trans h1.1 hx.1, le_trans hx.2 h2.2⟩

private theorem smallest_iff {s : Bool} {m M : Int} {R : ITy} : smallest s m M = some R ↔
    R.signed = s ∧ R.Ok ∧ R.In m ∧ R.In M ∧ ∀ S : ITy, S.signed = s → S.In m → S.In M → R.lg ≤ S.lg := by
  unfold smallest
  rw [Option.map_eq_some_iff]
  constructor
  · rintro ⟨k, h, rfl⟩
    rw [List.find?_range_eq_some] at h
    obtain ⟨h1, h2, h3⟩ := h
    have h1 := of_decide_eq_true h1
    refine ⟨rfl, ?_, h1.1, h1.2, fun S e a b => ?_⟩
    · have := List.mem_range.1 h2
      show k ≤ Arch.maxLg; omega
    · by_contra g
      have := h3 S.lg (by simpa using g)
      obtain ⟨s', l⟩ := S
      dsimp only at e; subst e
      simp [a, b] at this
  · rintro ⟨h1, h2, h3, h4, h5⟩
    obtain ⟨s', l⟩ := R
    dsimp only at h1; subst h1
    refine ⟨l, ?_, rfl⟩
    rw [List.find?_range_eq_some]
    refine ⟨by simp [h3, h4], ?_, fun j hj => ?_⟩
    · have : l ≤ Arch.maxLg := h2
      rw [List.mem_range]; omega
    · rw [Bool.not_eq_true', decide_eq_false_iff_not]
      rintro ⟨g1, g2⟩
      have := h5 ⟨_, j⟩ rfl g1 g2
      dsimp only at this; omega

private theorem zero_tight {R : ITy} {T U : Opd} (hT : T.Wf) (hU : U.Wf) (z : ZeroProduct R T U) :
    ∃ m M, resItv itvMul R T U = .ret ⟨exactOr R.min R.max m, exactOr R.min R.max M⟩ ∧
      Least (· * ·) T U m ∧ Greatest (· * ·) T U M := by
  have t1 := hT.2.2.2.1; have u1 := hU.2.2.2.1
  have ez : exactOr R.min R.max 0 = .ok 0 := exactOr_of_in R.in_zero.1 R.in_zero.2
  have c0 : castTo R 0 = .ok 0 := castTo_of_in R.in_zero
  have pz : prodFlag R (.ok 0) = .zero := by rw [prodFlag_ok R.in_zero]; rfl
  have flag : ∀ v, (R.signed = true ∨ 0 ≤ v) → prodFlag R (castTo R v) = .less_than_min ∨ prodFlag R (castTo R v) = .less_than_zero ∨
      prodFlag R (castTo R v) = .zero ∨ prodFlag R (castTo R v) = .greater_than_zero ∨ prodFlag R (castTo R v) = .greater_than_max :=
    fun v h => by
    have hn : ¬ (R.signed = false ∧ v < 0) := by
      rintro ⟨g1, g2⟩
      rcases h with h | h
      · rw [g1] at h; cases h
      · omega
    unfold castTo
    rw [if_neg hn]
    by_cases i : R.In v
    · rw [exactOr_of_in i.1 i.2, prodFlag_ok i]; split_ifs <;> simp
    · unfold exactOr; split_ifs
      · exact Or.inr (Or.inr (Or.inr (Or.inr rfl)))
      · exact Or.inl rfl
      · rename_i g1 g2
        exact absurd ⟨by omega, by omega⟩ i
  have tab : ∀ v, (R.signed = true ∨ 0 ≤ v) → mulTable .zero (prodFlag R (castTo R v)) = .zero ∧
      mulTable (prodFlag R (castTo R v)) .zero = .zero := fun v h => by
    rcases flag v h with e | e | e | e | e <;> rw [e] <;> exact ⟨rfl, rfl⟩
  obtain ⟨m, M, e, h⟩ := corner_tight (R := R) (op := crMul R) (g := (· * ·)) hT hU
    (fun a b ha hb => by
      rcases z with ⟨z1, z2, z3⟩ | ⟨z1, z2, z3⟩
      · have e0 : a = 0 := by omega
        have f0 := tab b (z3.imp id (fun h => by omega))
        subst e0
        show crMul R _ _ = .ret (exactOr _ _ (0 * b))
        rw [Int.zero_mul, ez, c0]
        unfold crMul
        rw [pz, f0.1]
      · have e0 : b = 0 := by omega
        have f0 := tab a (z3.imp id (fun h => by omega))
        subst e0
        show crMul R _ _ = .ret (exactOr _ _ (a * 0))
        rw [Int.mul_zero, ez, c0]
        unfold crMul
        rw [pz, f0.2])
    (fun t u L ht hu => corner_lower ht.1 ht.2 hu.1 hu.2)
    (fun t u L ht hu => corner_upper ht.1 ht.2 hu.1 hu.2)
  exact ⟨m, M, resItv_of hT hU e, h⟩

omit [Arch] in
private theorem zero_math {R : ITy} {T U : Opd} (z : ZeroProduct R T U) {x y : Int} (hx : T.Has x) (hy : U.Has y) :
    math .mul x y = 0 := by
  show x * y = 0
  have a1 := hx.1; have a2 := hx.2; have b1 := hy.1; have b2 := hy.2
  rcases z with ⟨z1, z2, _⟩ | ⟨z1, z2, _⟩
  · have : x = 0 := by omega
    rw [this, Int.zero_mul]
  · have : y = 0 := by omega
    rw [this, Int.mul_zero]

/-- the widest type of automatic promotion -/
private def widest (o : Arith) (T U : Opd) : ITy :=
  if o ≠ .sub ∧ T.base.signed = false ∧ U.base.signed = false then tUIntMax else tIntMax

private theorem widest_signed (o : Arith) (T U : Opd) :
    (widest o T U).signed = (decide (o = .sub) || T.base.signed || U.base.signed) := by
  unfold widest
  by_cases h : o = .sub <;> cases T.base.signed <;> cases U.base.signed <;> simp [h, tIntMax, tUIntMax]

private theorem widest_lg (o : Arith) (T U : Opd) : (widest o T U).lg = Arch.maxLg := by
  unfold widest; split <;> rfl

private theorem auto_signed {o : Arith} (ho : knows .automatic o = true) {T U : Opd} (hT : T.Wf) (hU : U.Wf) {R : ITy}
    (e : PP.automatic.result o.binOp T U = .ret R) : R.signed = (widest o T U).signed := by
  cases o with
  | div => cases ho
  | mod => cases ho
  | add =>
    have e0 : widest .add T U = autoTemp T U := by unfold widest autoTemp; simp
    obtain ⟨ri, e1, p1, p2, _⟩ := resItv_add (R := autoTemp T U) hT hU
    obtain ⟨S, e2, s2, _⟩ := autoEnds_spec (autoTemp_cases T U) p1 p2
    change (do autoEnds (autoTemp T U) (← resItv itvAdd (autoTemp T U) T U)) = _ at e
    rw [e1, Out.ret_bind, e2] at e
    rw [e0, ← Out.ret.inj e]; exact s2
  | sub =>
    have e0 : widest .sub T U = tIntMax := by unfold widest; simp
    obtain ⟨ri, e1, p1, p2, _⟩ := resItv_sub (R := tIntMax) hT hU
    obtain ⟨S, e2, s2, _⟩ := autoEnds_spec (Or.inl rfl) p1 p2
    change (do autoEnds tIntMax (← resItv itvSub tIntMax T U)) = _ at e
    rw [e1, Out.ret_bind, e2] at e
    rw [e0, ← Out.ret.inj e]; exact s2
  | mul =>
    have e0 : widest .mul T U = autoTemp T U := by unfold widest autoTemp; simp
    obtain ⟨ri, e1, p1, p2, _⟩ := resItv_mul (R := autoTemp T U) (autoTemp_ok T U) hT hU
    obtain ⟨S, e2, s2, _⟩ := autoEnds_spec (autoTemp_cases T U) p1 p2
    change (do autoEnds (autoTemp T U) (← resItv itvMul (autoTemp T U) T U)) = _ at e
    rw [e1, Out.ret_bind, e2] at e
    rw [e0, ← Out.ret.inj e]; exact s2

/-- the type of the analysis is that of the library, whenever it is good enough -/
private theorem agree {pp : PP} (hpp : pp.Wf) {o : Arith} (ho : knows pp o = true) {T U : Opd} (hT : T.Wf) (hU : U.Wf) {m M : Int}
    (hs : span o T.lo T.hi U.lo U.hi = some (m, M)) {R : ITy}
    (hb : Both R (Hull.of T) (Hull.of U) ∨ (o = .mul ∧ Null R (Hull.of T) (Hull.of U))) (h1 : R.In m) (h2 : R.In M) :
    pp.result o.binOp T U = .ret R ↔ opTy pp o (Hull.of T) (Hull.of U) = some R := by
  cases pp with
  | native =>
    have e : PP.native.result o.binOp T U = .ret (uac T.base U.base) := by cases o <;> rfl
    rw [e]
    exact ⟨fun h => by rw [← Out.ret.inj h]; rfl, fun h => by cases h; rfl⟩
  | cpp c =>
    show cppResult c T.base U.base = _ ↔ (match cppResult c T.base U.base with | .ret R => some R | _ => none) = _
    cases cppResult c T.base U.base <;> simp
  | automatic =>
    have t1 := hT.2.2.2.1; have u1 := hU.2.2.2.1
    have hm : o ≠ .mod := by rintro rfl; cases ho
    obtain ⟨g, ⟨x, y, x1, x2, y1, y2, e1⟩, x', y', x1', x2', y1', y2', e2⟩ := (C96_span o hm _ _ _ _ t1 u1).1 m M hs
    have eo : opTy .automatic o (Hull.of T) (Hull.of U) = smallest (widest o T U).signed m M := by
      rw [widest_signed]
      show (do let r ← span o T.lo T.hi U.lo U.hi; smallest (decide (o = Arith.sub) || T.base.signed || U.base.signed) r.1 r.2) = _
      rw [hs]; rfl
    rw [eo, smallest_iff]
    -- a type of the right signedness is enough to know the choice of the library
    have key : R.signed = (widest o T U).signed → R.Ok → ∃ R', PP.automatic.result o.binOp T U = .ret R' ∧ R'.Ok ∧
        R'.signed = (widest o T U).signed ∧ SmallestFor R' (math o) T U := fun sR oR => by
      have wid : ∀ v, R.In v → (widest o T U).In v := fun v hv => hv.widen sR (by rw [widest_lg]; exact oR)
      have hall : ∀ t u, T.Has t → U.Has u → (widest o T U).In (math o t u) := fun t u ht hu => by
        obtain ⟨k1, k2⟩ := g t u ht.1 ht.2 hu.1 hu.2
        exact wid _ ⟨le_trans h1.1 k1, le_trans k2 h2.2⟩
      rcases hb with ⟨b1, b2, b3, b4⟩ | ⟨rfl, z⟩
      · have ho' : o = .add ∨ o = .sub ∨ o = .mul := by cases o <;> first | (exact Or.inl rfl) | (exact Or.inr (Or.inl rfl)) | (exact Or.inr (Or.inr rfl)) | cases ho
        exact C77_automatic o ho' T U hT hU (widest o T U) rfl (wid _ b1) (wid _ b2) (wid _ b3) (wid _ b4) hall
      · have e0 : widest .mul T U = autoTemp T U := by unfold widest autoTemp; simp
        rw [e0] at hall sR ⊢
        have z' : ZeroProduct (autoTemp T U) T U := by unfold ZeroProduct; rw [← sR]; exact z
        obtain ⟨m', M', e, k1, k2⟩ := zero_tight hT hU z'
        obtain ⟨R', e', h⟩ := smallest_of (autoTemp_cases T U) k1 k2 hall
        refine ⟨R', ?_, h⟩
        show (do autoEnds (autoTemp T U) (← resItv itvMul (autoTemp T U) T U)) = _
        rw [e, Out.ret_bind, e']
    constructor
    · intro e
      have sR := auto_signed ho hT hU e
      have oR : R.Ok := by
        rcases PP.result_total (pp := .automatic) trivial (op := o.binOp) (by cases o <;> decide) hT hU with ⟨R', e', h⟩ | e'
        · rw [e] at e'; rw [Out.ret.inj e']; exact h
        · rw [e] at e'; cases e'
      obtain ⟨R', e', _, s', k1, k2⟩ := key sR oR
      rw [e] at e'
      obtain rfl := Out.ret.inj e'
      refine ⟨sR, oR, h1, h2, fun S hS a b => k2 S (hS.trans sR.symm) fun t u ht hu => ?_⟩
      obtain ⟨q1, q2⟩ := g t u ht.1 ht.2 hu.1 hu.2
      exact ⟨le_trans a.1 q1, le_trans q2 b.2⟩
    · rintro ⟨sR, oR, _, _, k⟩
      obtain ⟨R', e', o', s', k1, k2⟩ := key sR oR
      have l1 : R'.lg ≤ R.lg := k2 R (sR.trans s'.symm) fun t u ht hu => by
        obtain ⟨q1, q2⟩ := g t u ht.1 ht.2 hu.1 hu.2
        exact ⟨le_trans h1.1 q1, le_trans q2 h2.2⟩
      have l2 : R.lg ≤ R'.lg := k R' s' (e1 ▸ k1 x y ⟨x1, x2⟩ ⟨y1, y2⟩) (e2 ▸ k1 x' y' ⟨x1', x2'⟩ ⟨y1', y2'⟩)
      have : R' = R := by
        obtain ⟨s1, l1'⟩ := R; obtain ⟨s2, l2'⟩ := R'
        dsimp only at l1 l2 sR s'
        obtain rfl := sR; obtain rfl := s'
        congr 1; omega
      rw [← this]; exact e'

omit [Arch] in
private theorem hull2_some [Arch] {pp : PP} {o : Arith} {x y h : Hull} (e : hull2 pp o x y = some h) :
    span o x.lo x.hi y.lo y.hi = some (h.lo, h.hi) ∧ opTy pp o x y = some h.ty ∧
      (Both h.ty x y ∨ (o = .mul ∧ Null h.ty x y)) ∧ h.ty.In h.lo ∧ h.ty.In h.hi := by
  simp only [hull2, Option.bind_eq_bind, Option.bind_eq_some_iff] at e
  obtain ⟨r, e1, R, e2, e3⟩ := e
  split at e3
  · rename_i g
    cases e3
    exact ⟨e1, e2, g⟩
  · cases e3

private theorem hull2_of {pp : PP} {o : Arith} {x y : Hull} {R : ITy} {m M : Int} (e1 : span o x.lo x.hi y.lo y.hi = some (m, M))
    (e2 : opTy pp o x y = some R) (h : Both R x y ∨ (o = .mul ∧ Null R x y)) (h1 : R.In m) (h2 : R.In M) :
    hull2 pp o x y = some ⟨R, m, M⟩ := by
  simp only [hull2, Option.bind_eq_bind, e1, e2, Option.bind_some]
  rw [if_pos ⟨h, h1, h2⟩]

private theorem operator_iff (pp : PP) (hpp : pp.Wf) (p : EP) (hp : p.ae = .trap) (o : Arith) (ho : knows pp o = true) (T U : Opd)
    (hT : T.Wf) (hU : U.Wf) :
    (∃ h, hull2 pp o (Hull.of T) (Hull.of U) = some h ∧ h.ty.Ok ∧ h.lo ≤ h.hi ∧ arithTy pp o T U = .ret (Opd.range h.ty h.lo h.hi) ∧
      ∀ t u, T.Has t → U.Has u → arith pp p o T U t u ≠ .fault .illFormed) ∨
    (hull2 pp o (Hull.of T) (Hull.of U) = none ∧ ∀ t u, T.Has t → U.Has u → arith pp p o T U t u = .fault .illFormed) := by
  have t1 := hT.2.2.2.1; have u1 := hU.2.2.2.1
  have hm : o ≠ .mod := by rintro rfl; cases pp <;> cases ho
  have tlo : T.Has T.lo := ⟨le_refl _, t1⟩
  have ulo : U.Has U.lo := ⟨le_refl _, u1⟩
  have thi : T.Has T.hi := ⟨t1, le_refl _⟩
  have uhi : U.Has U.hi := ⟨u1, le_refl _⟩
  have cov : OpCovered pp p T U (.ar o) := by
    cases o with
    | div => cases pp <;> first | exact native_div_covered hT hU | cases ho
    | mod => exact absurd rfl hm
    | _ => trivial
  have acc := C73_operator_partial pp hpp p hp (.ar o) T U hT hU cov
  have hn : opName (.ar o) = o.binOp := rfl
  rw [hn] at acc
  obtain ⟨sp, sn⟩ := C96_span o hm T.lo T.hi U.lo U.hi t1 u1
  have im : ∀ x y v, imath (.ar o) x y = some v → v = math o x y := fun x y v h => by
    cases o with
    | div => simp only [imath] at h; split at h <;> cases h; rfl
    | mod => exact absurd rfl hm
    | _ => cases h; rfl
  -- what acceptance means
  have acc' : ∀ t u, T.Has t → U.Has u → (arith pp p o T U t u ≠ .fault .illFormed ↔
      ∃ h, hull2 pp o (Hull.of T) (Hull.of U) = some h) := fun t u ht hu => by
    refine (acc t u ht hu).trans ⟨?_, ?_⟩
    · rintro ⟨R, e, h⟩
      rcases hs : span o T.lo T.hi U.lo U.hi with _ | ⟨m, M⟩
      · obtain ⟨rfl, z1, z2⟩ := sn hs
        rcases h t 0 ht ⟨z1, z2⟩ with ⟨_, _, ⟨v, g, _⟩, _⟩ | ⟨g, _⟩
        · simp [imath] at g
        · cases g
      · obtain ⟨g, ⟨x, y, x1, x2, y1, y2, e1⟩, x', y', x1', x2', y1', y2', e2⟩ := sp m M hs
        have fit : ∀ x y, T.Has x → U.Has y → R.In (math o x y) := fun x y hx hy => by
          rcases h x y hx hy with ⟨_, _, ⟨v, k1, k2⟩, _⟩ | ⟨k, z⟩
          · rw [im _ _ _ k1] at k2; exact k2
          · obtain rfl : o = .mul := by cases k; rfl
            rw [zero_math z hx hy]; exact ITy.in_zero _
        have hb : Both R (Hull.of T) (Hull.of U) ∨ (o = .mul ∧ Null R (Hull.of T) (Hull.of U)) := by
          rcases h _ _ tlo ulo with ⟨k1, k2, _⟩ | ⟨k, z⟩
          · rcases h _ _ thi uhi with ⟨k3, k4, _⟩ | ⟨k, z⟩
            · exact Or.inl ⟨k1, k3, k2, k4⟩
            · exact Or.inr ⟨by cases k; rfl, z⟩
          · exact Or.inr ⟨by cases k; rfl, z⟩
        have i1 : R.In m := e1 ▸ fit x y ⟨x1, x2⟩ ⟨y1, y2⟩
        have i2 : R.In M := e2 ▸ fit x' y' ⟨x1', x2'⟩ ⟨y1', y2'⟩
        exact ⟨⟨R, m, M⟩, hull2_of hs ((agree hpp ho hT hU hs hb i1 i2).1 e) hb i1 i2⟩
    · rintro ⟨h, e⟩
      obtain ⟨hs, eo, hb, im1, im2⟩ := hull2_some e
      obtain ⟨g, _⟩ := sp _ _ hs
      refine ⟨h.ty, (agree hpp ho hT hU hs hb im1 im2).2 eo, fun x y hx hy => ?_⟩
      rcases hb with ⟨b1, b2, b3, b4⟩ | ⟨rfl, z⟩
      swap
      · exact Or.inr ⟨rfl, z⟩
      refine Or.inl ⟨all_in b1 b2 hx, all_in b3 b4 hy, ⟨math o x y, ?_, ?_⟩, nofun, nofun⟩
      · cases o with
        | div =>
          simp only [imath]
          rw [if_neg]
          · rfl
          · rintro rfl
            have hs : span .div T.lo T.hi U.lo U.hi = _ := hs
            simp only [span] at hs
            rw [if_pos ⟨hy.1, hy.2⟩] at hs; cases hs
        | mod => exact absurd rfl hm
        | _ => rfl
      · obtain ⟨k1, k2⟩ := g x y hx.1 hx.2 hy.1 hy.2
        exact ⟨le_trans im1.1 k1, le_trans k2 im2.2⟩
  rcases e : hull2 pp o (Hull.of T) (Hull.of U) with _ | h
  · right
    refine ⟨rfl, fun t u ht hu => ?_⟩
    by_contra g
    obtain ⟨h, e'⟩ := (acc' t u ht hu).1 g
    rw [e] at e'; cases e'
  · left
    refine ⟨h, rfl, ?_⟩
    obtain ⟨hs, eo, hb, im1, im2⟩ := hull2_some e
    have hs' : span o T.lo T.hi U.lo U.hi = some (h.lo, h.hi) := hs
    have er := (agree hpp ho hT hU hs' hb im1 im2).2 eo
    have ok : h.ty.Ok := by
      rcases PP.result_total hpp (op := o.binOp) (by cases o <;> decide) hT hU with ⟨R', e', h⟩ | e'
      · rw [er] at e'; rw [Out.ret.inj e']; exact h
      · rw [er] at e'; cases e'
    obtain ⟨g, ⟨x, y, x1, x2, y1, y2, e1⟩, x', y', x1', x2', y1', y2', e2⟩ := sp _ _ hs'
    refine ⟨ok, ?_, ?_, fun t u ht hu => (acc' t u ht hu).2 ⟨h, e⟩⟩
    · obtain ⟨k1, k2⟩ := g _ _ x1 x2 y1 y2
      omega
    have key : ∃ S, arithTy pp o T U = .ret S ∧ TightFor h.ty (math o) T U S := by
      rcases hb with ⟨b1, b2, b3, b4⟩ | ⟨rfl, z⟩
      · cases o with
        | div =>
          refine C77_div pp T U hT hU _ er b1 b2 b3 b4 ?_
          by_contra hz
          simp only [span] at hs'
          rw [if_pos ⟨by omega, by omega⟩] at hs'; cases hs'
        | mod => exact absurd rfl hm
        | add => exact C77_arith pp hpp .add (Or.inl rfl) T U hT hU _ er b1 b2 b3 b4
        | sub => exact C77_arith pp hpp .sub (Or.inr (Or.inl rfl)) T U hT hU _ er b1 b2 b3 b4
        | mul => exact C77_arith pp hpp .mul (Or.inr (Or.inr rfl)) T U hT hU _ er b1 b2 b3 b4
      · obtain ⟨m', M', e', k1, k2⟩ := zero_tight hT hU z
        unfold arithTy
        rw [er, Out.ret_bind]
        exact tight_of e' k1 k2
    obtain ⟨S, eS, k1, k2, m', M', ⟨⟨a, b, ha, hb, l1⟩, l2⟩, ⟨⟨a', b', ha', hb', r1⟩, r2⟩, s1, s2⟩ := key
    have em : m' = h.lo := by
      have q1 := (g a b ha.1 ha.2 hb.1 hb.2).1
      have q2 := l2 x y ⟨x1, x2⟩ ⟨y1, y2⟩
      omega
    have eM : M' = h.hi := by
      have q1 := (g a' b' ha'.1 ha'.2 hb'.1 hb'.2).2
      have q2 := r2 x' y' ⟨x1', x2'⟩ ⟨y1', y2'⟩
      omega
    subst em eM
    rw [if_pos im1] at s1; rw [if_pos im2] at s2
    rw [eS]
    obtain ⟨B, l, u, k⟩ := S
    dsimp only at k1 k2 s1 s2
    subst k1 k2 s1 s2
    rfl

/-- One operator on any operand types, any promotion policy, a policy that traps: the compiler accepts it if and only if interval
arithmetic finds an interval, that is if the type in which it is computed represents the operands and the ends of the interval of the
results (or one factor is zero); this interval is then the range of the type of the result. -/
theorem C96_operator (pp : PP) (hpp : pp.Wf) (p : EP) (hp : p.ae = .trap) (o : Arith) (ho : knows pp o = true) (T U : Opd)
    (hT : T.Wf) (hU : U.Wf) :
    (∃ h, hull2 pp o (Hull.of T) (Hull.of U) = some h ∧ arithTy pp o T U = .ret (Opd.range h.ty h.lo h.hi) ∧
      ∀ t u, T.Has t → U.Has u → arith pp p o T U t u ≠ .fault .illFormed) ∨
    (hull2 pp o (Hull.of T) (Hull.of U) = none ∧ ∀ t u, T.Has t → U.Has u → arith pp p o T U t u = .fault .illFormed) := by
  rcases operator_iff pp hpp p hp o ho T U hT hU with ⟨h, h1, _, _, h2⟩ | h
  · exact Or.inl ⟨h, h1, h2⟩
  · exact Or.inr h

/-- Native promotion: only the least operands and the ends of the results matter, because the common type of C++ is never too narrow. -/
theorem C96_native (p : EP) (hp : p.ae = .trap) (o : Arith) (ho : o ≠ .mod) (T U : Opd) (hT : T.Wf) (hU : U.Wf) (t u : Int)
    (ht : T.Has t) (hu : U.Has u) :
    arith .native p o T U t u ≠ .fault .illFormed ↔ ∃ m M, span o T.lo T.hi U.lo U.hi = some (m, M) ∧
      (uac T.base U.base).In T.lo ∧ (uac T.base U.base).In U.lo ∧ (uac T.base U.base).In m ∧ (uac T.base U.base).In M := by
  obtain ⟨fT, fU⟩ := native_fits hT hU
  have t1 := hT.2.2.2.1; have u1 := hU.2.2.2.1
  have hm := (uac T.base U.base).min_nonpos
  have f1 := fT.1; have f2 := fU.1; have g1 := fT.2; have g2 := fU.2
  have k := C96_operator .native trivial p hp o (by cases o <;> first | rfl | exact absurd rfl ho) T U hT hU
  constructor
  · intro h
    rcases k with ⟨x, e, _⟩ | ⟨_, k⟩
    · obtain ⟨hs, eo, hb, im1, im2⟩ := hull2_some e
      have ex : uac T.base U.base = x.ty := Option.some.inj eo
      refine ⟨_, _, hs, ?_⟩
      rw [ex]
      rcases hb with hb | ⟨_, z⟩
      · exact ⟨hb.1, hb.2.2.1, im1, im2⟩
      · rw [ex] at g1 g2 f1 f2 hm
        refine ⟨⟨?_, by omega⟩, ⟨?_, by omega⟩, im1, im2⟩
        all_goals
          by_cases hs : x.ty.signed = true
          · first | exact g1 hs | exact g2 hs
          · rcases z with ⟨z1, z2, z3⟩ | ⟨z1, z2, z3⟩ <;> have z3 := z3.resolve_left hs <;> simp only [Hull.of] at z1 z2 z3 <;> omega
    · exact absurd (k t u ht hu) h
  · rintro ⟨m, M, hs, lT, lU, im1, im2⟩
    rcases k with ⟨_, _, _, k⟩ | ⟨k, _⟩
    · exact k t u ht hu
    · exfalso
      have hb : Both (uac T.base U.base) (Hull.of T) (Hull.of U) :=
        ⟨lT, ⟨le_trans lT.1 t1, f1⟩, lU, ⟨le_trans lU.1 u1, f2⟩⟩
      rw [hull2_of (pp := .native) (o := o) (x := Hull.of T) (y := Hull.of U) hs rfl (Or.inl hb) im1 im2] at k
      cases k

/-! ### expressions -/

/-- what is known of the type of an expression -/
private structure Shape {N : Names} (q : N.P) (e : N.E) (v : Bool) (T : PTy N) (h : Hull) : Prop where
  wf : PTy.Wf T
  base : T.opd.base = h.ty
  lo : T.opd.lo = h.lo
  hi : T.opd.hi = h.hi
  safe : v = true → T.opd.kind = .safe ∧ T.pr = some q ∧ T.ex = some e
  free : v = false → T.pr = none ∧ T.ex = none

private theorem Shape.eq {N : Names} {q : N.P} {e : N.E} {v : Bool} {T : PTy N} {h : Hull} (s : Shape q e v T h) : Hull.of T.opd = h := by
  unfold Hull.of
  rw [s.base, s.lo, s.hi]

omit [Arch] in
private theorem common_of {α : Type} [DecidableEq α] {q : α} {x y : Option α} {v w : Bool} (h : (v || w) = true)
    (h1 : v = true → x = some q) (h2 : v = false → x = none) (h3 : w = true → y = some q) (h4 : w = false → y = none) :
    common x y = .ret q := by
  cases v <;> cases w
  · cases h
  · rw [h2 rfl, h3 rfl]; simp [common]
  · rw [h1 rfl, h4 rfl]; simp [common]
  · rw [h1 rfl, h3 rfl]; simp [common]

private theorem shape_pol {N : Names} {q : N.P} {e : N.E} {v w : Bool} {A B : PTy N} {x y : Hull} (ha : Shape q e v A x)
    (hb : Shape q e w B y) (h : (v || w) = true) :
    (A.isSafe || B.isSafe) = true ∧ common A.pr B.pr = .ret q ∧ common A.ex B.ex = .ret e := by
  refine ⟨?_, common_of h (fun g => (ha.safe g).2.1) (fun g => (ha.free g).1) (fun g => (hb.safe g).2.1) (fun g => (hb.free g).1),
    common_of h (fun g => (ha.safe g).2.2) (fun g => (ha.free g).2) (fun g => (hb.safe g).2.2) (fun g => (hb.free g).2)⟩
  rcases Bool.or_eq_true _ _ |>.mp h with g | g
  · simp [PTy.isSafe, (ha.safe g).1]
  · simp [PTy.isSafe, (hb.safe g).1]

private theorem bin_shape {N : Names} {q : N.P} {e : N.E} (hq : (N.prom q).Wf) (he : (N.act e).ae = .trap) {v w : Bool}
    {A B : PTy N} {x y : Hull} (ha : Shape q e v A x) (hb : Shape q e w B y) (h : (v || w) = true) (o : Arith)
    (ho : knows (N.prom q) o = true) :
    (∃ z T, hull2 (N.prom q) o x y = some z ∧ pBinTy (.ar o) A B = .ret T ∧ Shape q e true T z ∧
      ∀ t u, A.opd.Has t → B.opd.Has u → pBinVal (.ar o) A B t u ≠ .fault .illFormed) ∨
    (hull2 (N.prom q) o x y = none ∧ ∀ t u, A.opd.Has t → B.opd.Has u → pBinVal (.ar o) A B t u = .fault .illFormed) := by
  obtain ⟨s1, s2, s3⟩ := shape_pol ha hb h
  have ev : ∀ t u, pBinVal (.ar o) A B t u = arith (N.prom q) (N.act e) o A.opd B.opd t u := fun t u => by
    unfold pBinVal
    rw [if_pos s1, s2, s3]
    simp only [Out.ret_bind]
    rfl
  have k := operator_iff (N.prom q) hq (N.act e) he o ho A.opd B.opd ha.wf.1 hb.wf.1
  rw [ha.eq, hb.eq] at k
  rcases k with ⟨z, k1, ok, le, k4, k5⟩ | ⟨k1, k2⟩
  · left
    obtain ⟨_, _, _, im1, im2⟩ := hull2_some k1
    refine ⟨z, ⟨Opd.range z.ty z.lo z.hi, some q, some e⟩, k1, ?_,
      ⟨⟨⟨ok, im1, im2, le, nofun, nofun⟩, nofun, fun _ => ⟨nofun, nofun⟩, nofun⟩, rfl, rfl, rfl,
        fun _ => ⟨rfl, rfl, rfl⟩, nofun⟩, fun t u ht hu => by rw [ev]; exact k5 t u ht hu⟩
    unfold pBinTy
    rw [if_pos s1, s2, s3]
    simp only [Out.ret_bind]
    change (do let S ← arithTy (N.prom q) o A.opd B.opd; Out.ret (⟨S, some q, some e⟩ : PTy N)) = _
    rw [k4]; rfl
  · exact Or.inr ⟨k1, fun t u ht hu => by rw [ev]; exact k2 t u ht hu⟩

private theorem conv_iff {N : Names} {q : N.P} {e : N.E} {S T : PTy N} (he : (N.act e).ae = .trap) (hS : Having q e S)
    (hT : PTy.Wf T) :
    (∃ x, T.opd.Has x ∧ convTo S T x ≠ .fault .illFormed) ↔ S.opd.lo ≤ T.opd.lo ∧ T.opd.hi ≤ S.opd.hi := by
  obtain ⟨hS, ks, _, ex⟩ := hS
  have ep : S.ep = N.act e := by unfold PTy.ep; rw [ex]
  have t1 := hT.1.2.2.2.1; have s1 := hS.1.2.2.2.1
  constructor
  · rintro ⟨x, hx, h⟩
    unfold convTo at h
    rw [ks] at h
    dsimp only at h
    split at h
    · rename_i g; rw [g]; exact ⟨le_refl _, le_refl _⟩
    · rw [validate_eq hS.1.2.1 hS.1.2.2.1 hT.1 hx, ep, he] at h
      split at h
      · exact absurd rfl h
      · split at h
        · rename_i g; exact inclStatic_sound hS.1.2.1 hS.1.2.2.1 g
        · exact absurd rfl h
  · intro h
    refine ⟨T.opd.lo, ⟨le_refl _, t1⟩, ?_⟩
    unfold convTo
    rw [ks]
    dsimp only
    split
    · nofun
    · rw [validate_eq hS.1.2.1 hS.1.2.2.1 hT.1 ⟨le_refl _, t1⟩, if_neg, if_pos (inclStatic_complete hS.1.2.1 hS.1.2.2.1 t1 h)]
      · nofun
      · intro g
        have := exclStatic_sound hS.1.2.1 hS.1.2.2.1 g
        omega

private theorem e_shape {N : Names} {q : N.P} {e : N.E} {n : Nat} {Γ : Fin n → PTy N} (hΓ : OnePolicy q e Γ) :
    ∀ a : LExpr N n, SimpleE q e a →
      (∃ h T, hull (N.prom q) Γ a = some h ∧ a.ty Γ = .ret T ∧ Shape q e (hasVar a) T h ∧ EAccepted Γ a) ∨ (hull (N.prom q) Γ a = none ∧ ¬ EAccepted Γ a)
  | .var i, _ => by
    obtain ⟨h1, h2, h3, h4⟩ := hΓ.2.2 i
    exact Or.inl ⟨_, _, rfl, rfl, ⟨h1, rfl, rfl, rfl, fun _ => ⟨h2, h3, h4⟩, nofun⟩, trivial⟩
  | .const B c, h => Or.inl ⟨_, _, rfl, rfl, ⟨pbuiltin_wf h.1, rfl, rfl, rfl, nofun, fun _ => ⟨rfl, rfl⟩⟩, trivial⟩
  | .lit L, ⟨h1, h2, h3, h4⟩ => Or.inl ⟨_, _, rfl, rfl, ⟨h1, rfl, rfl, rfl, nofun, fun _ => ⟨h3, h4⟩⟩, trivial⟩
  | .bin (.ar o) a b, ⟨ha, hb, ho, hv⟩ => by
    rcases e_shape hΓ a ha with ⟨x, A, a1, a2, a3, a4⟩ | ⟨a1, a2⟩
    swap
    · exact Or.inr ⟨by simp only [hull, a1]; rfl, fun h => a2 h.1⟩
    rcases e_shape hΓ b hb with ⟨y, B, b1, b2, b3, b4⟩ | ⟨b1, b2⟩
    swap
    · exact Or.inr ⟨by simp only [hull, a1, b1]; rfl, fun h => b2 h.2.1⟩
    have hA : A.opd.Has A.opd.lo := ⟨le_refl _, a3.wf.1.2.2.2.1⟩
    have hB : B.opd.Has B.opd.lo := ⟨le_refl _, b3.wf.1.2.2.2.1⟩
    have eh : hull (N.prom q) Γ (.bin (.ar o) a b) = hull2 (N.prom q) o x y := by simp only [hull, a1, b1, Option.bind_eq_bind, Option.bind_some]
    rw [eh]
    rcases bin_shape hΓ.1 hΓ.2.1 a3 b3 hv o ho with ⟨z, T, k1, k4, k5, k6⟩ | ⟨k1, k2⟩
    · left
      refine ⟨z, T, k1, ?_, ?_, a4, b4, A, B, a2, b2, _, _, hA, hB, k6 _ _ hA hB⟩
      · simp only [LExpr.ty]; rw [a2, b2]; exact k4
      · rw [show hasVar (.bin (.ar o) a b) = true from hv]; exact k5
    · right
      refine ⟨k1, ?_⟩
      rintro ⟨_, _, A', B', a2', b2', t, u, ht, hu, g⟩
      rw [a2] at a2'; rw [b2] at b2'
      obtain rfl := Out.ret.inj a2'; obtain rfl := Out.ret.inj b2'
      exact g (k2 t u ht hu)
  | .neg a, ⟨ha, hv⟩ => by
    rcases e_shape hΓ a ha with ⟨x, A, a1, a2, a3, a4⟩ | ⟨a1, a2⟩
    swap
    · exact Or.inr ⟨by simp only [hull, a1]; rfl, fun h => a2 h.1⟩
    have hA : A.opd.Has A.opd.lo := ⟨le_refl _, a3.wf.1.2.2.2.1⟩
    have hz : (Opd.ofBuiltin tInt).Has 0 := tInt.in_zero
    have ks := (a3.safe hv).1
    have hi : Shape q e false (PTy.builtin tInt : PTy N) ⟨tInt, tInt.min, tInt.max⟩ :=
      ⟨pbuiltin_wf tInt_ok, rfl, rfl, rfl, nofun, fun _ => ⟨rfl, rfl⟩⟩
    have et : negTyOf A = pBinTy (.ar .sub) (PTy.builtin tInt) A := by unfold negTyOf; rw [ks]
    have ev : ∀ t, negValOf A t = pBinVal (.ar .sub) (PTy.builtin tInt) A 0 t := fun t => by unfold negValOf; rw [ks]
    have eh : hull (N.prom q) Γ (.neg a) = hull2 (N.prom q) .sub ⟨tInt, tInt.min, tInt.max⟩ x := by
      simp only [hull, a1, Option.bind_eq_bind, Option.bind_some]
    rw [eh]
    rcases bin_shape hΓ.1 hΓ.2.1 hi a3 (by rw [hv]; rfl) .sub (by cases N.prom q <;> rfl) with ⟨z, T, k1, k4, k5, k6⟩ | ⟨k1, k2⟩
    · left
      refine ⟨z, T, k1, ?_, ?_, a4, A, a2, _, hA, ?_⟩
      · simp only [LExpr.ty]; rw [a2, Out.ret_bind, et]; exact k4
      · rw [show hasVar (.neg a) = true from hv]; exact k5
      · rw [ev]; exact k6 _ _ hz hA
    · right
      refine ⟨k1, ?_⟩
      rintro ⟨_, A', a2', t, ht, g⟩
      rw [a2] at a2'
      obtain rfl := Out.ret.inj a2'
      rw [ev] at g
      exact g (k2 0 t hz ht)
  | .pos a, ⟨ha, hv⟩ => by
    rcases e_shape hΓ a ha with ⟨x, A, a1, a2, a3, a4⟩ | ⟨a1, a2⟩
    · refine Or.inl ⟨x, A, a1, ?_, a3, a4⟩
      simp only [LExpr.ty]
      rw [a2, Out.ret_bind]
      unfold posTyOf
      rw [(a3.safe hv).1]
    · exact Or.inr ⟨a1, a2⟩
  | .cast S a, ⟨ha, hS⟩ => by
    rcases e_shape hΓ a ha with ⟨x, A, a1, a2, a3, a4⟩ | ⟨a1, a2⟩
    swap
    · exact Or.inr ⟨by simp only [hull, a1]; rfl, fun h => a2 h.1⟩
    have k := conv_iff hΓ.2.1 hS a3.wf
    rw [a3.lo, a3.hi] at k
    have eh : hull (N.prom q) Γ (.cast S a) = if S.opd.lo ≤ x.lo ∧ x.hi ≤ S.opd.hi then some (Hull.of S.opd) else none := by
      simp only [hull, a1, Option.bind_eq_bind, Option.bind_some]
    rw [eh]
    by_cases g : S.opd.lo ≤ x.lo ∧ x.hi ≤ S.opd.hi
    · rw [if_pos g]
      exact Or.inl ⟨_, S, rfl, rfl, ⟨hS.1, rfl, rfl, rfl, fun _ => hS.2, nofun⟩, a4, A, a2, k.2 g⟩
    · rw [if_neg g]
      refine Or.inr ⟨rfl, ?_⟩
      rintro ⟨_, A', a2', hx⟩
      rw [a2] at a2'
      obtain rfl := Out.ret.inj a2'
      exact g (k.1 hx)

/-- Expressions: the compiler accepts an expression if and only if interval arithmetic finds an interval for it; this interval is
then the range of its type. -/
theorem C96_expr {N : Names} {q : N.P} {e : N.E} {n : Nat} {Γ : Fin n → PTy N} (hΓ : OnePolicy q e Γ) (a : LExpr N n)
    (ha : SimpleE q e a) :
    (EAccepted Γ a ↔ ∃ h, hull (N.prom q) Γ a = some h) ∧
    ∀ h, hull (N.prom q) Γ a = some h → ∃ T, a.ty Γ = .ret T ∧ T.opd.base = h.ty ∧ T.opd.lo = h.lo ∧ T.opd.hi = h.hi := by
  rcases e_shape hΓ a ha with ⟨h, T, h1, h2, h3, h4⟩ | ⟨h1, h2⟩
  · exact ⟨⟨fun _ => ⟨h, h1⟩, fun _ => h4⟩, fun h' g => by rw [h1] at g; cases g; exact ⟨T, h2, h3.base, h3.lo, h3.hi⟩⟩
  · exact ⟨⟨fun g => absurd g h2, fun ⟨h, g⟩ => by rw [h1] at g; cases g⟩, fun h g => by rw [h1] at g; cases g⟩

/-! ### programs -/

private theorem assign_iff {N : Names} {q : N.P} {e : N.E} {n : Nat} {Γ : Fin n → PTy N} (hΓ : OnePolicy q e Γ) (i : Fin n)
    (a : LExpr N n) (ha : SimpleE q e a) :
    (EAccepted Γ a ∧ ∃ A, a.ty Γ = .ret A ∧ ∃ x, A.opd.Has x ∧ convTo (Γ i) A x ≠ .fault .illFormed) ↔ within (N.prom q) Γ i a := by
  rcases e_shape hΓ a ha with ⟨h, T, h1, h2, h3, h4⟩ | ⟨h1, h2⟩
  · have k := conv_iff hΓ.2.1 (hΓ.2.2 i) h3.wf
    rw [h3.lo, h3.hi] at k
    constructor
    · rintro ⟨_, A, eA, hx⟩
      rw [h2] at eA; obtain rfl := Out.ret.inj eA
      exact ⟨h, h1, k.1 hx⟩
    · rintro ⟨h', eh, hw⟩
      rw [h1] at eh; cases eh
      exact ⟨h4, T, h2, k.2 hw⟩
  · exact ⟨fun g => absurd g.1 h2, fun ⟨h, g, _⟩ => by rw [h1] at g; cases g⟩

private theorem agree_cmp {pp : PP} {T U : Opd} (hT : T.Wf) (hU : U.Wf) (o : Rel) :
    (∃ R, cmpType pp o T U = .ret R ∧ (∀ x, T.Has x → R.In x) ∧ ∀ y, U.Has y → R.In y) ↔
      ∃ R, cmpTy pp o (Hull.of T) (Hull.of U) = some R ∧ Both R (Hull.of T) (Hull.of U) := by
  have t1 := hT.2.2.2.1; have u1 := hU.2.2.2.1
  have tlo : T.Has T.lo := ⟨le_refl _, t1⟩
  have ulo : U.Has U.lo := ⟨le_refl _, u1⟩
  have thi : T.Has T.hi := ⟨t1, le_refl _⟩
  have uhi : U.Has U.hi := ⟨u1, le_refl _⟩
  have hb : ∀ R : ITy, ((∀ x, T.Has x → R.In x) ∧ ∀ y, U.Has y → R.In y) ↔ Both R (Hull.of T) (Hull.of U) := fun R =>
    ⟨fun ⟨h1, h2⟩ => ⟨h1 _ tlo, h1 _ thi, h2 _ ulo, h2 _ uhi⟩,
      fun ⟨h1, h2, h3, h4⟩ => ⟨fun x hx => all_in h1 h2 hx, fun y hy => all_in h3 h4 hy⟩⟩
  simp only [hb]
  cases pp with
  | native =>
    have e : cmpType .native o T U = .ret (uac T.base U.base) := by
      cases o <;> first | rfl | (show Out.ret (uac U.base T.base) = _; rw [uac_comm])
    rw [e]
    constructor
    · rintro ⟨R, h, g⟩
      exact ⟨R, by rw [← Out.ret.inj h]; rfl, g⟩
    · rintro ⟨R, h, g⟩
      exact ⟨R, by rw [← Option.some.inj h]; rfl, g⟩
  | cpp c =>
    refine exists_congr fun R => and_congr_left fun _ => ?_
    have e : cmpType (.cpp c) o T U = if o = .gt ∨ o = .le then cppResult c U.base T.base else cppResult c T.base U.base := by
      cases o <;> simp [cmpType, PP.result]
    rw [e]
    show _ ↔ (match (if o = .gt ∨ o = .le then cppResult c U.base T.base else cppResult c T.base U.base) with
      | .ret R => some R
      | _ => none) = _
    cases (if o = .gt ∨ o = .le then cppResult c U.base T.base else cppResult c T.base U.base) <;> simp
  | automatic =>
    -- the type of the library
    have sg : ∀ {T U : Opd}, T.Wf → U.Wf → ∃ R, autoResult .cmp T U = .ret R ∧ R.Ok ∧ R.signed = (T.base.signed || U.base.signed) := by
      intro T U hT hU
      have k1 := castTo_proper (R := autoTemp T U) (x := T.lo)
      have k2 := castTo_proper (R := autoTemp T U) (x := T.hi)
      have k3 := castTo_proper (R := autoTemp T U) (x := U.lo)
      have k4 := castTo_proper (R := autoTemp T U) (x := U.hi)
      obtain ⟨q1, q2⟩ := unionItv_proper (B := autoTemp T U) (t := ⟨castTo (autoTemp T U) T.lo, castTo (autoTemp T U) T.hi⟩)
        (u := ⟨castTo (autoTemp T U) U.lo, castTo (autoTemp T U) U.hi⟩) k1 k2 k3 k4
      obtain ⟨S, e, s, ok, _⟩ := autoEnds_spec (autoTemp_cases T U) q1 q2
      refine ⟨S, ?_, ok, ?_⟩
      · show autoCmp T U = _
        unfold autoCmp
        rw [castItv_eq hT, castItv_eq hU]
        exact e
      · rw [s]; unfold autoTemp; cases T.base.signed <;> cases U.base.signed <;> simp [tIntMax, tUIntMax]
    have wd : ∀ {T U : Opd} {R : ITy} {v : Int}, R.Ok → R.signed = (T.base.signed || U.base.signed) → R.In v → (autoTemp T U).In v := by
      intro T U R v ok sR h
      refine h.widen ?_ ?_
      · rw [sR]; unfold autoTemp; cases T.base.signed <;> cases U.base.signed <;> simp [tIntMax, tUIntMax]
      · rcases autoTemp_cases T U with e | e <;> rw [e] <;> exact ok
    have lib : ∀ {T U : Opd}, T.Wf → U.Wf → ((∃ R, autoResult .cmp T U = .ret R ∧ Both R (Hull.of T) (Hull.of U)) ↔
        Both (autoTemp T U) (Hull.of T) (Hull.of U)) := by
      intro T U hT hU
      constructor
      · rintro ⟨R, e, h1, h2, h3, h4⟩
        obtain ⟨R', e', ok, sR⟩ := sg hT hU
        rw [e] at e'; obtain rfl := Out.ret.inj e'
        exact ⟨wd ok sR h1, wd ok sR h2, wd ok sR h3, wd ok sR h4⟩
      · rintro ⟨h1, h2, h3, h4⟩
        obtain ⟨R, e, g1, g2⟩ := autoCmp_in hT hU ⟨h1, h2⟩ ⟨h3, h4⟩
        exact ⟨R, e, g1.1, g1.2, g2.1, g2.2⟩
    have spc : (∃ R, cmpTy .automatic o (Hull.of T) (Hull.of U) = some R ∧ Both R (Hull.of T) (Hull.of U)) ↔
        Both (autoTemp T U) (Hull.of T) (Hull.of U) := by
      constructor
      · rintro ⟨R, e, h1, h2, h3, h4⟩
        obtain ⟨sR, ok, _⟩ := smallest_iff.1 e
        exact ⟨wd ok sR h1, wd ok sR h2, wd ok sR h3, wd ok sR h4⟩
      · rintro ⟨h1, h2, h3, h4⟩
        have eB : (autoTemp T U).signed = (T.base.signed || U.base.signed) := by
          unfold autoTemp; cases T.base.signed <;> cases U.base.signed <;> simp [tIntMax, tUIntMax]
        have i1 : (autoTemp T U).In (min T.lo U.lo) := by
          rcases min_choice T.lo U.lo with e | e <;> rw [e]
          · exact h1
          · exact h3
        have i2 : (autoTemp T U).In (max T.hi U.hi) := by
          rcases max_choice T.hi U.hi with e | e <;> rw [e]
          · exact h2
          · exact h4
        obtain ⟨S, _, s1, s2, s3, s4⟩ := autoStored_spec (autoTemp_cases T U) i1 i2
        have a1 := s3 (min T.lo U.lo) (le_refl _) (by have := min_le_left T.lo U.lo; have := le_max_left T.hi U.hi; omega)
        have a2 := s3 (max T.hi U.hi) (by have := min_le_left T.lo U.lo; have := le_max_left T.hi U.hi; omega) (le_refl _)
        refine ⟨S, smallest_iff.2 ⟨s1.trans eB, s2, a1, a2, fun S' q1 q2 q3 => s4 S' (q1.trans eB.symm) q2 q3⟩, ?_⟩
        refine ⟨s3 _ ?_ ?_, s3 _ ?_ ?_, s3 _ ?_ ?_, s3 _ ?_ ?_⟩ <;> simp only [Hull.of] <;> omega
    rw [spc]
    cases o with
    | gt =>
      refine (Iff.trans ?_ (lib hU hT)).trans ?_
      · exact exists_congr fun R => and_congr_right fun _ => ⟨fun ⟨a, b, c, d⟩ => ⟨c, d, a, b⟩, fun ⟨a, b, c, d⟩ => ⟨c, d, a, b⟩⟩
      · have : autoTemp U T = autoTemp T U := by unfold autoTemp; simp only [and_comm]
        rw [this]
        exact ⟨fun ⟨a, b, c, d⟩ => ⟨c, d, a, b⟩, fun ⟨a, b, c, d⟩ => ⟨c, d, a, b⟩⟩
    | le =>
      refine (Iff.trans ?_ (lib hU hT)).trans ?_
      · exact exists_congr fun R => and_congr_right fun _ => ⟨fun ⟨a, b, c, d⟩ => ⟨c, d, a, b⟩, fun ⟨a, b, c, d⟩ => ⟨c, d, a, b⟩⟩
      · have : autoTemp U T = autoTemp T U := by unfold autoTemp; simp only [and_comm]
        rw [this]
        exact ⟨fun ⟨a, b, c, d⟩ => ⟨c, d, a, b⟩, fun ⟨a, b, c, d⟩ => ⟨c, d, a, b⟩⟩
    | _ => exact lib hT hU

private theorem cmp_iff {N : Names} {q : N.P} {e : N.E} (he : (N.act e).ae = .trap) {v w : Bool}
    {A B : PTy N} {x y : Hull} (ha : Shape q e v A x) (hb : Shape q e w B y) (h : (v || w) = true) (o : Rel) :
    (∃ t u, A.opd.Has t ∧ B.opd.Has u ∧ pCompare o A B t u ≠ .fault .illFormed) ↔ ∃ R, cmpTy (N.prom q) o x y = some R ∧ Both R x y := by
  obtain ⟨s1, s2, s3⟩ := shape_pol ha hb h
  have hA : A.opd.Has A.opd.lo := ⟨le_refl _, ha.wf.1.2.2.2.1⟩
  have hB : B.opd.Has B.opd.lo := ⟨le_refl _, hb.wf.1.2.2.2.1⟩
  have ev : ∀ t u, pCompare o A B t u = compare (N.prom q) (N.act e) o A.opd B.opd t u := fun t u => by
    unfold pCompare
    rw [if_pos s1, s2, s3]
    simp only [Out.ret_bind]
  have k := agree_cmp (pp := N.prom q) ha.wf.1 hb.wf.1 o
  rw [ha.eq, hb.eq] at k
  rw [← k]
  constructor
  · rintro ⟨t, u, ht, hu, g⟩
    rw [ev] at g
    exact (C73_compare (N.prom q) (N.act e) he o A.opd B.opd ha.wf.1 hb.wf.1 _ _ ht hu).1 g
  · intro g
    refine ⟨_, _, hA, hB, ?_⟩
    rw [ev]
    exact (C73_compare (N.prom q) (N.act e) he o A.opd B.opd ha.wf.1 hb.wf.1 _ _ hA hB).2 g

private theorem truth_rejected {N : Names} {q : N.P} {e : N.E} (he : (N.act e).ae = .trap) {A : PTy N} {x : Hull}
    (ha : Shape q e true A x) (t : Int) (ht : A.opd.Has t) : toBool A.ep A.opd t = .fault .illFormed := by
  obtain ⟨k, _, k2⟩ := ha.safe rfl
  rw [toBool_safe ha.wf.1 k ht]
  have : A.ep = N.act e := by unfold PTy.ep; rw [k2]
  unfold boolRun
  rw [this, he]

private theorem cond_iff {N : Names} {q : N.P} {e : N.E} {n : Nat} {Γ : Fin n → PTy N} (hΓ : OnePolicy q e Γ) :
    ∀ c : LCond N n, SimpleC q e c → (CAccepted Γ c ↔ CHulls (N.prom q) Γ c)
  | .cmp o a b, ⟨ha, hb, hv⟩ => by
    rcases e_shape hΓ a ha with ⟨x, A, a1, a2, a3, a4⟩ | ⟨a1, a2⟩
    swap
    · exact ⟨fun h => absurd h.1 a2, fun ⟨x, _, _, h, _⟩ => by rw [a1] at h; cases h⟩
    rcases e_shape hΓ b hb with ⟨y, B, b1, b2, b3, b4⟩ | ⟨b1, b2⟩
    swap
    · exact ⟨fun h => absurd h.2.1 b2, fun ⟨x, _, _, _, h, _⟩ => by rw [b1] at h; cases h⟩
    have k := cmp_iff hΓ.2.1 a3 b3 hv o
    constructor
    · rintro ⟨_, _, A', B', a2', b2', g⟩
      rw [a2] at a2'; rw [b2] at b2'
      obtain rfl := Out.ret.inj a2'; obtain rfl := Out.ret.inj b2'
      obtain ⟨R, g⟩ := k.1 g
      exact ⟨x, y, R, a1, b1, g⟩
    · rintro ⟨x', y', R, a1', b1', g⟩
      rw [a1] at a1'; rw [b1] at b1'
      cases a1'; cases b1'
      exact ⟨a4, b4, A, B, a2, b2, k.2 ⟨R, g⟩⟩
  | .truth a, ⟨ha, hv⟩ => by
    refine ⟨?_, nofun⟩
    rintro ⟨h1, A', ea, t, ht, g⟩
    rcases e_shape hΓ a ha with ⟨x, A, a1, a2, a3, a4⟩ | ⟨a1, a2⟩
    · rw [a2] at ea; obtain rfl := Out.ret.inj ea
      rw [hv] at a3
      exact g (truth_rejected hΓ.2.1 a3 t ht)
    · exact a2 h1
  | .not a, h => cond_iff hΓ a h
  | .and a b, h => and_congr (cond_iff hΓ a h.1) (cond_iff hΓ b h.2)
  | .or a b, h => and_congr (cond_iff hΓ a h.1) (cond_iff hΓ b h.2)

private theorem opAssign_iff {N : Names} {q : N.P} {e : N.E} {n : Nat} {Γ : Fin n → PTy N} (hΓ : OnePolicy q e Γ) (o : Arith) (i : Fin n)
    (a : LExpr N n) (h : SimpleE q e (.bin (.ar o) (.var i) a)) :
    SAccepted Γ (.opAssign (.ar o) i a) ↔ within (N.prom q) Γ i (.bin (.ar o) (.var i) a) := by
  refine Iff.trans ?_ (assign_iff hΓ i (.bin (.ar o) (.var i) a) h)
  constructor
  · rintro ⟨h1, A, eA, ⟨x, y, hx, hy, h2⟩, V, eV, h3⟩
    exact ⟨⟨trivial, h1, Γ i, A, rfl, eA, x, y, hx, hy, h2⟩, V, by simp only [LExpr.ty]; rw [eA]; exact eV, h3⟩
  · rintro ⟨⟨_, h1, A', A, eA', eA, x, y, hx, hy, h2⟩, V, eV, h3⟩
    obtain rfl : Γ i = A' := Out.ret.inj eA'
    refine ⟨h1, A, eA, ⟨x, y, hx, hy, h2⟩, V, ?_, h3⟩
    simp only [LExpr.ty] at eV
    rw [eA] at eV; exact eV

private theorem step_iff {N : Names} {q : N.P} {e : N.E} {n : Nat} {Γ : Fin n → PTy N} (hΓ : OnePolicy q e Γ) (o : Arith)
    (ho : knows (N.prom q) o = true) (i : Fin n) : OpAssignAccepted (.ar o) (Γ i) (PTy.builtin tInt) ↔ within (N.prom q) Γ i (.bin (.ar o) (.var i) (.const tInt 1)) :=
  Iff.trans ⟨fun h => ⟨trivial, _, rfl, h⟩, fun ⟨_, A, eA, h⟩ => by obtain rfl := Out.ret.inj eA; exact h⟩
    (opAssign_iff hΓ o i (.const tInt 1) ⟨trivial, ⟨tInt_ok, tInt.in_one⟩, ho, rfl⟩)

/-- Programs: the compiler accepts the program if and only if interval analysis does. -/
theorem C96_program {N : Names} {q : N.P} {e : N.E} {n : Nat} {Γ : Fin n → PTy N} (hΓ : OnePolicy q e Γ) :
    ∀ p : LStmt N n, SimpleS q e p → (SAccepted Γ p ↔ Hulls (N.prom q) Γ p)
  | .skip, _ => Iff.rfl
  | .assign i a, h => assign_iff hΓ i a h
  | .opAssign (.ar o) i a, h => opAssign_iff hΓ o i a h
  | .inc i, _ => step_iff hΓ .add (by cases N.prom q <;> rfl) i
  | .dec i, _ => step_iff hΓ .sub (by cases N.prom q <;> rfl) i
  | .input i, _ => by
    refine ⟨?_, nofun⟩
    rintro ⟨old, s, _, g⟩
    obtain ⟨h1, h2, _, h4⟩ := hΓ.2.2 i
    have ep : (Γ i).ep = N.act e := by unfold PTy.ep; rw [h4]
    unfold inputStep at g
    rw [if_pos (by simp [PTy.isSafe, h2])] at g
    unfold input at g
    rw [ep, inputStatic_trap hΓ.2.1 h1.1] at g
    exact g rfl
  | .output a, h => by
    have k := C96_expr hΓ a h.1
    exact ⟨fun g => k.1.1 g.1, fun g => ⟨k.1.2 g, by obtain ⟨x, g⟩ := g; obtain ⟨T, g, _⟩ := k.2 x g; exact ⟨T, g⟩⟩⟩
  | .seq a b, h => and_congr (C96_program hΓ a h.1) (C96_program hΓ b h.2)
  | .ite c a b, h => and_congr (cond_iff hΓ c h.1) (and_congr (C96_program hΓ a h.2.1) (C96_program hΓ b h.2.2))
  | .while c a, h => and_congr (cond_iff hΓ c h.1) (C96_program hΓ a h.2)
  | .tryCatch a b, h => and_congr (C96_program hΓ a h.1) (C96_program hΓ b h.2)

/-! ### what an accepted program does -/

private theorem cond_compiles {N : Names} (hN : Careful N) {n : Nat} {Γ : Fin n → PTy N} (hΓ : GoodVars Γ) {s : Fin n → Int}
    (hs : Ranged Γ s) : ∀ c : LCond N n, CCovered Γ c → CAccepted Γ c → CCompiles Γ c
  | .cmp o a b, hc, ha => ⟨s, hs, C67_cond_partial hN Γ hΓ s hs (.cmp o a b) hc ha⟩
  | .truth a, hc, ha => ⟨s, hs, C67_cond_partial hN Γ hΓ s hs (.truth a) hc ha⟩
  | .not a, hc, ha => cond_compiles hN hΓ hs a hc ha
  | .and a b, hc, ha => ⟨cond_compiles hN hΓ hs a hc.1 ha.1, cond_compiles hN hΓ hs b hc.2 ha.2⟩
  | .or a b, hc, ha => ⟨cond_compiles hN hΓ hs a hc.1 ha.1, cond_compiles hN hΓ hs b hc.2 ha.2⟩

/-- The two ways of saying that a program compiles: if every operation is accepted for some operands, every statement is accepted in
every state. -/
theorem C67_compiles_partial {N : Names} (hN : Careful N) {n : Nat} (Γ : Fin n → PTy N) (hΓ : GoodVars Γ) (s : Fin n → Int)
    (hs : Ranged Γ s) : ∀ p : LStmt N n, SCovered Γ p → SAccepted Γ p → Compiles Γ p
  | .skip, _, _ => trivial
  | .assign _ _, hc, ha => ⟨s, hs, assign_accepted hN hΓ hs hc ha⟩
  | .opAssign _ _ _, hc, ⟨ha, _, ea, hx⟩ => ⟨s, hs, opAssign_accepted hN hΓ hs hc ha ea hx⟩
  | .inc _, hc, ha => ⟨s, hs, opAssign_accepted hN hΓ hs (inc_covered hc (Or.inl rfl)) trivial rfl ha⟩
  | .dec _, hc, ha => ⟨s, hs, opAssign_accepted hN hΓ hs (inc_covered hc (Or.inr rfl)) trivial rfl ha⟩
  | .input _, _, ⟨old, t, _, ha⟩ => ⟨old, t, ha⟩
  | .output a, hc, ⟨ha, _⟩ => ⟨s, hs, C67_expr_partial hN Γ hΓ s hs a hc.1 ha⟩
  | .seq a b, hc, ha => ⟨C67_compiles_partial hN Γ hΓ s hs a hc.1 ha.1, C67_compiles_partial hN Γ hΓ s hs b hc.2 ha.2⟩
  | .ite c a b, hc, ha => ⟨cond_compiles hN hΓ hs c hc.1 ha.1, C67_compiles_partial hN Γ hΓ s hs a hc.2.1 ha.2.1,
      C67_compiles_partial hN Γ hΓ s hs b hc.2.2 ha.2.2⟩
  | .while c a, hc, ha => ⟨cond_compiles hN hΓ hs c hc.1 ha.1, C67_compiles_partial hN Γ hΓ s hs a hc.2 ha.2⟩
  | .tryCatch a b, hc, ha => ⟨C67_compiles_partial hN Γ hΓ s hs a hc.1 ha.1, C67_compiles_partial hN Γ hΓ s hs b hc.2 ha.2⟩

private theorem knows_covered {pp : PP} {p : EP} {o : Arith} (ho : knows pp o = true) {T U : Opd} (hT : T.Wf) (hU : U.Wf) :
    OpCovered pp p T U (.ar o) := by
  cases o with
  | div => cases pp <;> first | exact native_div_covered hT hU | cases ho
  | mod => cases pp <;> cases ho
  | _ => trivial

private theorem bin_covered {N : Names} {q : N.P} {e : N.E} {v w : Bool} {A B : PTy N} {x y : Hull} (ha : Shape q e v A x)
    (hb : Shape q e w B y) (h : (v || w) = true) {o : Arith} (ho : knows (N.prom q) o = true) : BinCovered (.ar o) A B := by
  obtain ⟨s1, s2, s3⟩ := shape_pol ha hb h
  refine ⟨by simpa using s1, fun q' e' h1 h2 => ?_⟩
  rw [s2] at h1; rw [s3] at h2
  obtain rfl := Out.ret.inj h1; obtain rfl := Out.ret.inj h2
  exact knows_covered ho ha.wf.1 hb.wf.1

private theorem e_covered {N : Names} {q : N.P} {e : N.E} {n : Nat} {Γ : Fin n → PTy N} (hΓ : OnePolicy q e Γ) :
    ∀ a : LExpr N n, SimpleE q e a → (∃ h, hull (N.prom q) Γ a = some h) → ECovered Γ a
  | .var _, _, _ => trivial
  | .const _ _, h, _ => h
  | .lit _, h, _ => ⟨h.1, h.2.1⟩
  | .bin (.ar o) a b, ⟨ha, hb, ho, hv⟩, ⟨h, hh⟩ => by
    rcases e_shape hΓ a ha with ⟨x, A, a1, a2, a3, _⟩ | ⟨a1, _⟩
    swap
    · simp only [hull, a1] at hh; cases hh
    rcases e_shape hΓ b hb with ⟨y, B, b1, b2, b3, _⟩ | ⟨b1, _⟩
    swap
    · simp only [hull, a1, b1] at hh; cases hh
    refine ⟨e_covered hΓ a ha ⟨x, a1⟩, e_covered hΓ b hb ⟨y, b1⟩, fun T U eT eU => ?_⟩
    rw [a2] at eT; rw [b2] at eU
    obtain rfl := Out.ret.inj eT; obtain rfl := Out.ret.inj eU
    exact bin_covered a3 b3 hv ho
  | .neg a, ⟨ha, hv⟩, ⟨h, hh⟩ => by
    rcases e_shape hΓ a ha with ⟨x, A, a1, a2, a3, _⟩ | ⟨a1, _⟩
    swap
    · simp only [hull, a1] at hh; cases hh
    refine ⟨e_covered hΓ a ha ⟨x, a1⟩, fun T eT => ?_⟩
    rw [a2] at eT
    obtain rfl := Out.ret.inj eT
    simp [PTy.isSafe, (a3.safe hv).1]
  | .pos a, ⟨ha, _⟩, hh => e_covered hΓ a ha hh
  | .cast S a, ⟨ha, hS⟩, ⟨h, hh⟩ => by
    rcases e_shape hΓ a ha with ⟨x, A, a1, a2, a3, _⟩ | ⟨a1, _⟩
    swap
    · simp only [hull, a1] at hh; cases hh
    exact ⟨e_covered hΓ a ha ⟨x, a1⟩, fun T _ => ⟨hS.1, Or.inr hS.2.1, Or.inl (by simp [PTy.isSafe, hS.2.1])⟩⟩

private theorem c_covered {N : Names} {q : N.P} {e : N.E} {n : Nat} {Γ : Fin n → PTy N} (hΓ : OnePolicy q e Γ) :
    ∀ c : LCond N n, SimpleC q e c → CHulls (N.prom q) Γ c → CCovered Γ c
  | .cmp _ a b, ⟨ha, hb, hv⟩, ⟨x, y, _, a1, b1, _⟩ => by
    refine ⟨e_covered hΓ a ha ⟨x, a1⟩, e_covered hΓ b hb ⟨y, b1⟩, fun T U eT eU => ?_⟩
    rcases e_shape hΓ a ha with ⟨x', A, _, a2, a3, _⟩ | ⟨g, _⟩
    swap
    · rw [a1] at g; cases g
    rcases e_shape hΓ b hb with ⟨y', B, _, b2, b3, _⟩ | ⟨g, _⟩
    swap
    · rw [b1] at g; cases g
    rw [a2] at eT; rw [b2] at eU
    obtain rfl := Out.ret.inj eT; obtain rfl := Out.ret.inj eU
    left
    have := (shape_pol a3 b3 hv).1
    simpa using this
  | .not a, h, g => c_covered hΓ a h g
  | .and a b, h, g => ⟨c_covered hΓ a h.1 g.1, c_covered hΓ b h.2 g.2⟩
  | .or a b, h, g => ⟨c_covered hΓ a h.1 g.1, c_covered hΓ b h.2 g.2⟩

private theorem s_covered {N : Names} {q : N.P} {e : N.E} {n : Nat} {Γ : Fin n → PTy N} (hΓ : OnePolicy q e Γ) :
    ∀ p : LStmt N n, SimpleS q e p → Hulls (N.prom q) Γ p → SCovered Γ p
  | .skip, _, _ => trivial
  | .assign i a, h, ⟨x, g, _⟩ => ⟨e_covered hΓ a h ⟨x, g⟩, fun T _ => ⟨(hΓ.2.2 i).1, Or.inr (hΓ.2.2 i).2.1,
      Or.inl (by simp [PTy.isSafe, (hΓ.2.2 i).2.1])⟩⟩
  | .opAssign (.ar o) i a, h, ⟨x, g, _⟩ => by
    obtain ⟨_, h2, h3⟩ := e_covered hΓ (.bin (.ar o) (.var i) a) h ⟨x, g⟩
    exact ⟨h2, fun U eU => h3 _ U rfl eU⟩
  | .inc i, _, _ => by simp [SCovered, PTy.isSafe, (hΓ.2.2 i).2.1]
  | .dec i, _, _ => by simp [SCovered, PTy.isSafe, (hΓ.2.2 i).2.1]
  | .output a, h, ⟨x, g⟩ => by
    refine ⟨e_covered hΓ a h.1 ⟨x, g⟩, fun T eT => Or.inl ?_⟩
    rcases e_shape hΓ a h.1 with ⟨x', A, _, a2, a3, _⟩ | ⟨g', _⟩
    · rw [a2] at eT; obtain rfl := Out.ret.inj eT
      simp [PTy.isSafe, (a3.safe h.2).1]
    · rw [g] at g'; cases g'
  | .seq a b, h, g => ⟨s_covered hΓ a h.1 g.1, s_covered hΓ b h.2 g.2⟩
  | .ite c a b, h, g => ⟨c_covered hΓ c h.1 g.1, s_covered hΓ a h.2.1 g.2.1, s_covered hΓ b h.2.2 g.2.2⟩
  | .while c a, h, g => ⟨c_covered hΓ c h.1 g.1, s_covered hΓ a h.2 g.2⟩
  | .tryCatch a b, h, g => ⟨s_covered hΓ a h.1 g.1, s_covered hΓ b h.2 g.2⟩

/-- So interval analysis is enough to know that the program compiles and, whatever the values of its variables, runs without exceptions
and computes what the program over the integers computes. -/
theorem C96_run {N : Names} (hN : Trapping N) {q : N.P} {e : N.E} {n : Nat}
    {Γ : Fin n → PTy N} (hΓ : OnePolicy q e Γ) (p : LStmt N n) (hp : SimpleS q e p) (h : Hulls (N.prom q) Γ p) (f : Nat) (s : LState n)
    (hs : Ranged Γ s.st) :
    (p.exec Γ f s = none ∧ iexec f p (abst s) = none) ∨
    (∃ s', p.exec Γ f s = some (.ret (), s') ∧ iexec f p (abst s) = some (some (abst s')) ∧ Ranged Γ s'.st ∧
      s'.caught = s.caught) := by
  have hv : GoodVars Γ := fun i => ⟨(hΓ.2.2 i).1, Or.inr (hΓ.2.2 i).2.1⟩
  have hc := s_covered hΓ p hp h
  exact C62_total_partial hN Γ hv f p s hc (C67_compiles_partial ⟨fun e => Or.inr (hN.1 e), hN.2⟩ Γ hv s.st hs p hc
    ((C96_program hΓ p hp).2 h)) hs

private theorem no_add {N : Names} {pp : PP} {n : Nat} {Γ : Fin n → PTy N} (i : Fin n) (a : LExpr N n) (h : Hull) (ha : hull pp Γ a = some h)
    (hz : h.lo < 0 ∨ 0 < h.hi) : ¬ within pp Γ i (.bin (.ar .add) (.var i) a) := by
  rintro ⟨x, e, h1, h2⟩
  simp only [hull, ha, Option.bind_eq_bind, Option.bind_some] at e
  obtain ⟨e, _⟩ := hull2_some e
  simp only [span, Hull.of, Option.some.injEq, Prod.mk.injEq] at e
  omega

/-- A consequence: nothing can be counted. With a policy that traps neither `++x` nor `x = x + k` nor `x += k`, for a literal `k` other than
zero, compiles for any variable, whatever its range, because interval analysis does not look at conditions. -/
theorem C96_counter {N : Names} {q : N.P} {e : N.E} {n : Nat} {Γ : Fin n → PTy N} (hΓ : OnePolicy q e Γ) (i : Fin n) :
    ¬ SAccepted Γ (.inc i) ∧ ∀ L, SimpleE q e (.lit L : LExpr N n) → L.opd.lo ≠ 0 →
      ¬ SAccepted Γ (.assign i (.bin (.ar .add) (.var i) (.lit L))) ∧ ¬ SAccepted Γ (.opAssign (.ar .add) i (.lit L)) := by
  have hv : (hasVar (.var i : LExpr N n) || false) = true := rfl
  constructor
  · intro h
    refine no_add i (.const tInt 1) _ rfl (Or.inr ?_) ((C96_program hΓ (.inc i) trivial).1 h)
    have := tInt.max_ge
    show 0 < tInt.max
    omega
  · intro L hL hz
    have h0 : L.opd.lo = L.opd.hi := by
      obtain ⟨b, hb⟩ := hL.2.1
      exact hL.1.1.2.2.2.2.2 b hb
    have k : ¬ within (N.prom q) Γ i (.bin (.ar .add) (.var i) (.lit L)) := no_add i (.lit L) _ rfl (by simp only [Hull.of]; omega)
    have hs : SimpleE q e (.bin (.ar .add) (.var i) (.lit L) : LExpr N n) := ⟨trivial, hL, by cases N.prom q <;> rfl, hv⟩
    exact ⟨fun h => k ((C96_program hΓ (.assign i (.bin (.ar .add) (.var i) (.lit L))) hs).1 h),
      fun h => k ((C96_program hΓ (.opAssign (.ar .add) i (.lit L)) hs).1 h)⟩

end

/-! ### a program -/

namespace Analysis
attribute [local instance] lp64

def names : Names := ⟨Unit, Unit, inferInstance, inferInstance, fun _ => .native, fun _ => strictTrap⟩

/-- `safe_unsigned_range<0, 1000>`, stored in an `unsigned short` -/
abbrev a : PTy names := ⟨Opd.range u16 0 1000, some (), some ()⟩
/-- `safe_signed_range<1, 100>`, stored in a `signed char` -/
abbrev b : PTy names := ⟨Opd.range i8 1 100, some (), some ()⟩
/-- `safe_signed_range<-1000, 100000>`, stored in an `int` -/
abbrev c : PTy names := ⟨Opd.range i32 (-1000) 100000, some (), some ()⟩
/-- `safe_signed_literal<2>` -/
abbrev two : PTy names := ⟨⟨i8, 2, 2, .lit false⟩, none, none⟩

def Γ : Fin 3 → PTy names := fun i => if i = 0 then a else if i = 1 then b else c

theorem one : OnePolicy () () Γ := by
  have ha : PTy.Wf a := ⟨by decide +kernel, nofun, fun _ => ⟨nofun, nofun⟩, nofun⟩
  have hb : PTy.Wf b := ⟨by decide +kernel, nofun, fun _ => ⟨nofun, nofun⟩, nofun⟩
  have hc : PTy.Wf c := ⟨by decide +kernel, nofun, fun _ => ⟨nofun, nofun⟩, nofun⟩
  refine ⟨trivial, rfl, fun i => ?_⟩
  unfold Γ
  split
  · exact ⟨ha, rfl, rfl, rfl⟩
  · split
    · exact ⟨hb, rfl, rfl, rfl⟩
    · exact ⟨hc, rfl, rfl, rfl⟩

/-- `x2 = x0 * x1 - x0 / x1; while (x2 > x1) { x2 = x2 / 2_lit; }` -/
def prog : LStmt names 3 :=
  .seq (.assign 2 (.bin (.ar .sub) (.bin (.ar .mul) (.var 0) (.var 1)) (.bin (.ar .div) (.var 0) (.var 1))))
    (.while (.cmp .gt (.var 2) (.var 1)) (.assign 2 (.bin (.ar .div) (.var 2) (.lit two))))

theorem simple : SimpleS () () prog := by
  have ht : PTy.Wf two := ⟨by decide +kernel, nofun, nofun, fun b h => by cases h; rfl⟩
  exact ⟨⟨⟨trivial, trivial, rfl, rfl⟩, ⟨trivial, trivial, rfl, rfl⟩, rfl, rfl⟩, ⟨trivial, trivial, rfl⟩,
    trivial, ⟨ht, ⟨_, rfl⟩, rfl, rfl⟩, rfl, rfl⟩

theorem hulls : Hulls .native Γ prog :=
  ⟨⟨⟨i32, -1000, 100000⟩, by decide +kernel, by decide +kernel, by decide +kernel⟩,
    ⟨_, _, _, rfl, rfl, rfl, by decide +kernel⟩, ⟨i32, -500, 50000⟩, by decide +kernel, by decide +kernel, by decide +kernel⟩

-- so it compiles, and runs without exceptions for all values
example : SAccepted Γ prog := (C96_program one prog simple).2 hulls
example (f : Nat) (s : LState 3) (hs : Ranged Γ s.st) (s' : LState 3) (e : Err) : prog.exec Γ f s ≠ some (.thrown e, s') := by
  rcases C96_run (N := names) ⟨fun _ => rfl, fun _ => trivial⟩ one prog simple hulls f s hs with ⟨h, _⟩ | ⟨s'', h, _⟩ <;> rw [h] <;> nofun

-- an assignment that is rejected: the interval of `x0 / x1` is 0..1000, that of `x1` 1..100
example : ¬ SAccepted Γ (.assign 1 (.bin (.ar .div) (.var 0) (.var 1))) := fun h => by
  obtain ⟨x, e, g, _⟩ := (C96_program one (.assign 1 (.bin (.ar .div) (.var 0) (.var 1))) ⟨trivial, trivial, rfl, rfl⟩).1 h
  rw [show hull (names.prom ()) Γ (.bin (.ar .div) (.var 0) (.var 1)) = some ⟨i32, 0, 1000⟩ by decide +kernel] at e
  cases e
  revert g; decide +kernel

-- `span` on a divisor that may be zero, and on one that is negative
example : span .div (-7) 9 (-1) 2 = none ∧ span .div (-7) 9 (-3) (-2) = some (-4, 3) ∧ span .mul (-7) 9 (-3) 2 = some (-27, 21) := by
  decide

/-! ### the same with automatic promotion -/

def names2 : Names := ⟨Unit, Unit, inferInstance, inferInstance, fun _ => .automatic, fun _ => strictTrap⟩

/-- `safe_signed_range<1000, 1010>`, stored in a `short` -/
abbrev d : PTy names2 := ⟨Opd.range i16 1000 1010, some (), some ()⟩
/-- `safe_signed_range<-2000000, 2000000>`, stored in an `int` -/
abbrev l : PTy names2 := ⟨Opd.range i32 (-2000000) 2000000, some (), some ()⟩

def Δ : Fin 2 → PTy names2 := fun i => if i = 0 then d else l

theorem one2 : OnePolicy () () Δ := by
  have hd : PTy.Wf d := ⟨by decide +kernel, nofun, fun _ => ⟨nofun, nofun⟩, nofun⟩
  have hl : PTy.Wf l := ⟨by decide +kernel, nofun, fun _ => ⟨nofun, nofun⟩, nofun⟩
  refine ⟨trivial, rfl, fun i => ?_⟩
  unfold Δ
  split
  · exact ⟨hd, rfl, rfl, rfl⟩
  · exact ⟨hl, rfl, rfl, rfl⟩

/-- `x1 = x0 * x0 + x0` is accepted -/
example : SAccepted Δ (.assign 1 (.bin (.ar .add) (.bin (.ar .mul) (.var 0) (.var 0)) (.var 0))) :=
  (C96_program one2 (.assign 1 (.bin (.ar .add) (.bin (.ar .mul) (.var 0) (.var 0)) (.var 0))) ⟨⟨trivial, trivial, rfl, rfl⟩, trivial, rfl, rfl⟩).2
    ⟨⟨i32, 1001000, 1021110⟩, by decide +kernel, by decide +kernel, by decide +kernel⟩

/-- `x1 = x0 - x0` is not: the results are in -10..10, so that the type chosen is `signed char`, which does not represent the operands -/
example : ¬ SAccepted Δ (.assign 1 (.bin (.ar .sub) (.var 0) (.var 0))) := fun h => by
  obtain ⟨x, e, _⟩ := (C96_program one2 (.assign 1 (.bin (.ar .sub) (.var 0) (.var 0))) ⟨trivial, trivial, rfl, rfl⟩).1 h
  rw [show hull (names2.prom ()) Δ (.bin (.ar .sub) (.var 0) (.var 0)) = none by decide +kernel] at e
  cases e

/-- with native promotion it is -/
example : hull .native Δ (.bin (.ar .sub) (.var 0) (.var 0)) = some ⟨i32, -10, 10⟩ := by decide +kernel

end Analysis
end Verif.Props
