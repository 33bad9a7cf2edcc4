import Verif.Props.Extended2
import Verif.Props.Types
import Mathlib.Tactic.Linarith

/-!
Property C29 for `%`: the bounds of the type of a remainder by a range of positive divisors, and exactly when they are right.
-/

namespace Verif.Props
open Spec

section
variable [Arch]

/-- the corners are values: their minimum and maximum -/
private theorem four (R : ITy) {a b c d : Int} (ha : R.In a) (hb : R.In b) (hc : R.In c) (hd : R.In d) :
    minmax4 R (.ok a) (.ok b) (.ok c) (.ok d) = .ret ⟨.ok (min (min a b) (min c d)), .ok (max (max a b) (max c d))⟩ := by
  have nv : ∀ x, ¬ Vague (.ok x) := fun x h => by obtain ⟨_, h, _⟩ := h; cases h
  obtain ⟨m, M, e, hm, hM, hh⟩ := minmax_cr (R := R) (.ok a) [.ok b, .ok c, .ok d] (by
    intro x hx; simp at hx; rcases hx with rfl | rfl | rfl | rfl <;> assumption)
  unfold minmax4
  rw [e]
  simp only [Out.ret_bind]
  rcases hh with ⟨v, _⟩ | ⟨_, _, _, h⟩
  · exact absurd v (nv a)
  have h1 := h (.ok a) (by simp) (nv _); have h2 := h (.ok b) (by simp) (nv _)
  have h3 := h (.ok c) (by simp) (nv _); have h4 := h (.ok d) (by simp) (nv _)
  simp only [CR.key] at h1 h2 h3 h4
  simp at hm hM
  congr 2
  · rcases hm with rfl | rfl | rfl | rfl <;> simp only [CR.key] at h1 h2 h3 h4 <;> congr 1 <;> omega
  · rcases hM with rfl | rfl | rfl | rfl <;> simp only [CR.key] at h1 h2 h3 h4 <;> congr 1 <;> omega

/-- The type of `t % u` for a dividend range `[a, b]` with `a ≤ 0 ≤ b` and a range `[c, d]` of positive divisors: from the smaller of
the remainders of `a` to the larger of the remainders of `b`. -/
theorem C29_mod_type (pp : PP) (T U : Opd) (hT : T.Wf) (hU : U.Wf) (R : ITy) (hres : pp.result .mod T U = .ret R)
    (iT : R.In T.lo ∧ R.In T.hi) (iU : R.In U.hi) (h1 : T.lo ≤ 0) (h2 : 0 ≤ T.hi) (h3 : 0 < U.lo) :
    arithTy pp .mod T U =
      .ret (Opd.range R (min (T.lo.tmod U.lo) (T.lo.tmod U.hi)) (max (T.hi.tmod U.lo) (T.hi.tmod U.hi))) := by
  have u1 := hU.2.2.2.1
  have hm := R.min_nonpos; have hM := R.max_ge
  have iU' : R.In U.lo := ⟨by omega, le_trans u1 iU.2⟩
  have neg : ∀ {x y : Int}, x ≤ 0 → x.tmod y ≤ 0 := fun {x y} h => by
    have := Int.tmod_nonneg y (show 0 ≤ -x by omega)
    rw [Int.neg_tmod] at this; omega
  have cr : ∀ {x y : Int}, R.In x → R.In y → 0 < y → crMod R (.ok x) (.ok y) = .ret (.ok (x.tmod y)) := fun {x y} hx hy h => by
    rw [crMod_values hx hy (by omega), if_neg (fun g => by have := g.2.2; omega)]
  have th : thenCond R ⟨.ok U.lo, .ok U.hi⟩ = true := by
    unfold thenCond crGt
    rw [crLt_ok iU R.in_zero, crLt_ok R.in_zero iU']
    have : decide ((0 : Int) < U.lo) = true := by simpa using h3
    rw [this]
    cases decide (U.hi < 0) <;> rfl
  have er : modItv R ⟨castTo R T.lo, castTo R T.hi⟩ ⟨castTo R U.lo, castTo R U.hi⟩ =
      .ret ⟨.ok (min (T.lo.tmod U.lo) (T.lo.tmod U.hi)), .ok (max (T.hi.tmod U.lo) (T.hi.tmod U.hi))⟩ := by
    rw [castTo_of_in iT.1, castTo_of_in iT.2, castTo_of_in iU, castTo_of_in iU']
    unfold modItv divModItv
    change (if thenCond R ⟨.ok U.lo, .ok U.hi⟩ = true then _ else _) = _
    rw [if_pos th]
    simp only [itvMod, excludes_of_then th, assertThat, if_true, Out.ret_bind, corners, cr iT.1 iU' h3,
      cr iT.1 iU (lt_of_lt_of_le h3 u1), cr iT.2 iU' h3, cr iT.2 iU (lt_of_lt_of_le h3 u1)]
    rw [four R (tmod_in iT.1) (tmod_in iT.1) (tmod_in iT.2) (tmod_in iT.2)]
    have a1 := neg (y := U.lo) h1; have a2 := neg (y := U.hi) h1
    have b1 := Int.tmod_nonneg U.lo h2; have b2 := Int.tmod_nonneg U.hi h2
    congr 3 <;> omega
  unfold arithTy
  rw [show Arith.binOp .mod = .mod from rfl, hres, Out.ret_bind]
  show resTy modItv R T U = _
  unfold resTy
  rw [resItv_of hT hU er, Out.ret_bind]
  rfl

omit [Arch] in
/-- the greatest remainder of the numbers from 0 to `b` by the numbers from `c` to `d` -/
private theorem side {b c d : Int} (hb : 0 ≤ b) (hc : 0 < c) (hcd : c ≤ d) :
    (∀ t u, 0 ≤ t → t ≤ b → c ≤ u → u ≤ d → t.tmod u ≤ max (b.tmod c) (b.tmod d)) ↔ (b < d ∨ d ∣ b + 1) := by
  have em : ∀ {x y : Int}, 0 ≤ x → x.tmod y = x % y := fun {x y} h => Int.tmod_eq_emod_of_nonneg h
  have lc := Int.emod_lt_of_pos b hc
  have ld := Int.emod_lt_of_pos b (show 0 < d by omega)
  have nc := Int.emod_nonneg b (show c ≠ 0 by omega)
  have nd := Int.emod_nonneg b (show d ≠ 0 by omega)
  constructor
  · intro h
    rcases Int.lt_or_le b d with g | g
    · exact Or.inl g
    · right
      have := h (d - 1) d (by omega) (by omega) hcd (le_refl _)
      rw [em (by omega), em hb, em hb, Int.emod_eq_of_lt (by omega) (by omega)] at this
      have e : b % d = d - 1 := by
        rcases Int.lt_or_le (b % d) (d - 1) with g' | g'
        · have : c = d := by omega
          subst this; omega
        · omega
      exact Int.dvd_of_emod_eq_zero (by
        rw [Int.add_emod, e]
        rcases Int.lt_or_le 1 d with g' | g'
        · rw [Int.emod_eq_of_lt (show (0 : Int) ≤ 1 by omega) g', show d - 1 + 1 = d by omega, Int.emod_self]
        · have : d = 1 := by omega
          subst this; rfl)
  · rintro (h | h) t u ht htb hcu hud
    · have : b % d = b := Int.emod_eq_of_lt hb h
      rw [em ht, em hb, em hb, this]
      have : t % u ≤ t := by
        rcases Int.lt_or_le t u with g | g
        · rw [Int.emod_eq_of_lt ht g]
        · have := Int.emod_lt_of_pos t (show 0 < u by omega); omega
      omega
    · have e : b % d = d - 1 := by
        obtain ⟨k, hk⟩ := h
        have : b = (d - 1) + d * (k - 1) := by rw [Int.mul_sub, ← hk]; omega
        rw [this, Int.add_mul_emod_self_left, Int.emod_eq_of_lt (by omega) (by omega)]
      rw [em ht, em hb, em hb, e]
      have := Int.emod_lt_of_pos t (show 0 < u by omega)
      omega

/-- ... and exactly when every remainder is within these bounds: on each side of zero the range ends before the largest
divisor, or with a number just before one of its multiples. -/
theorem C29_mod_iff (pp : PP) (T U : Opd) (hT : T.Wf) (hU : U.Wf) (R : ITy) (hres : pp.result .mod T U = .ret R)
    (iT : R.In T.lo ∧ R.In T.hi) (iU : R.In U.hi) (h1 : T.lo ≤ 0) (h2 : 0 ≤ T.hi) (h3 : 0 < U.lo) :
    (∃ S, arithTy pp .mod T U = .ret S ∧ ∀ t u, T.Has t → U.Has u → S.Has (t.tmod u)) ↔
      (T.hi < U.hi ∨ U.hi ∣ T.hi + 1) ∧ (-T.lo < U.hi ∨ U.hi ∣ -T.lo + 1) := by
  have e := C29_mod_type pp T U hT hU R hres iT iU h1 h2 h3
  have u1 := hU.2.2.2.1
  rw [← side h2 h3 u1, ← side (b := -T.lo) (by omega) h3 u1]
  simp only [Int.neg_tmod]
  constructor
  · rintro ⟨S, eS, h⟩
    rw [e] at eS
    obtain rfl := Out.ret.inj eS
    refine ⟨fun t u ht hb hc hd => ?_, fun t u ht hb hc hd => ?_⟩
    · exact (h t u ⟨by omega, hb⟩ ⟨hc, hd⟩).2
    · have := (h (-t) u ⟨by omega, by omega⟩ ⟨hc, hd⟩).1
      rw [Int.neg_tmod] at this
      change min (T.lo.tmod U.lo) (T.lo.tmod U.hi) ≤ _ at this
      omega
  · rintro ⟨g1, g2⟩
    refine ⟨_, e, fun t u ht hu => ⟨?_, ?_⟩⟩
    · show min (T.lo.tmod U.lo) (T.lo.tmod U.hi) ≤ _
      rcases Int.lt_or_le t 0 with h | h
      · have := g2 (-t) u (by omega) (by have := ht.1; omega) hu.1 hu.2
        rw [Int.neg_tmod] at this; omega
      · have := g2 0 U.lo (le_refl _) (by omega) (le_refl _) u1
        rw [Int.zero_tmod] at this
        have := Int.tmod_nonneg u h
        omega
    · show _ ≤ max (T.hi.tmod U.lo) (T.hi.tmod U.hi)
      rcases Int.lt_or_le t 0 with h | h
      · have a := Int.tmod_nonneg u (show 0 ≤ -t by omega)
        rw [Int.neg_tmod] at a
        have := Int.tmod_nonneg U.lo h2
        omega
      · exact g1 t u h ht.2 hu.1 hu.2

/-- With native promotion: a remainder of a whole unsigned type by a constant has a right type exactly for divisors that
divide `2^bits`, powers of two. -/
theorem C29_mod_constant (B : ITy) (hB : B.Ok) (hs : B.signed = false) (hl : promote B = B) (c : Int) (h0 : 0 < c) (hc : c ≤ B.max) :
    (∃ S, arithTy .native .mod (Opd.ofSafe B) (Opd.range B c c) = .ret S ∧
        ∀ t, B.In t → S.Has (t.tmod c)) ↔
      c ∣ 2 ^ B.bits := by
  have hm : B.min = 0 := by have := ITy.min_eq B; rw [hs] at this; simpa using this
  have hM := B.max_ge
  have wT : (Opd.ofSafe B).Wf := ⟨hB, B.in_min, B.in_max, by show B.min ≤ B.max; omega, nofun, nofun⟩
  have wU : (Opd.range B c c).Wf := ⟨hB, ⟨by show B.min ≤ c; omega, hc⟩, ⟨by show B.min ≤ c; omega, hc⟩, le_refl _, nofun, nofun⟩
  have hres : PP.native.result .mod (Opd.ofSafe B) (Opd.range B c c) = .ret B := by
    show Out.ret (uac B B) = _
    rw [uac_self, hl]
  have key := C29_mod_iff .native _ _ wT wU B hres ⟨B.in_min, B.in_max⟩ ⟨by show B.min ≤ c; omega, hc⟩ (by show B.min ≤ 0; omega)
    (by show 0 ≤ B.max; omega) h0
  have e : B.max + 1 = 2 ^ B.bits := by unfold ITy.max ITy.digits; rw [hs]; simp
  have k1 : (∃ S, arithTy .native .mod (Opd.ofSafe B) (Opd.range B c c) = .ret S ∧ ∀ t, B.In t → S.Has (t.tmod c)) ↔
      ∃ S, arithTy .native .mod (Opd.ofSafe B) (Opd.range B c c) = .ret S ∧
        ∀ t u, (Opd.ofSafe B).Has t → (Opd.range B c c).Has u → S.Has (t.tmod u) := by
    constructor
    · rintro ⟨S, h, g⟩
      refine ⟨S, h, fun t u ht hu => ?_⟩
      have : u = c := by have a := hu.1; have b := hu.2; change c ≤ u at a; change u ≤ c at b; omega
      subst this; exact g t ht
    · rintro ⟨S, h, g⟩
      exact ⟨S, h, fun t ht => g t c ht ⟨le_refl _, le_refl _⟩⟩
  rw [k1, key]
  show (B.max < c ∨ c ∣ B.max + 1) ∧ (-B.min < c ∨ c ∣ -B.min + 1) ↔ _
  rw [e, hm]
  constructor
  · rintro ⟨h | h, _⟩
    · omega
    · exact h
  · exact fun h => ⟨Or.inr h, Or.inl (by omega)⟩

end

section
attribute [local instance] lp64

-- `safe<unsigned> % 10` has a type for 0 to 5, `safe<unsigned> % 8` one for 0 to 7
example : arithTy .native .mod (Opd.ofSafe u32) (Opd.range u32 10 10) = .ret (Opd.range u32 0 5) ∧
    arithTy .native .mod (Opd.ofSafe u32) (Opd.range u32 8 8) = .ret (Opd.range u32 0 7) := by decide +kernel

end
end Verif.Props
