import Verif.ExactSpec
import Verif.Props.Bitwise

/-!
Property C78: exactly which bitwise operators of safe types compile, and which return values outside the bounds of their type.
-/

namespace Verif.Props
open Spec
section
variable [Arch]

omit [Arch] in
private theorem ret_bind {α β : Type} (a : α) (f : α → Out β) : (Out.ret a >>= f) = f a := rfl

omit [Arch] in
private theorem conv_toUnsigned (R : ITy) (x : Int) : conv R.toUnsigned x = x % 2 ^ R.bits := by
  unfold conv ITy.toUnsigned; simp [ITy.bits]

omit [Arch] in
private theorem pos (w : Nat) : (0 : Int) < 2 ^ w := Int.pow_pos (by decide)

omit [Arch] in
private theorem bit_mod (x : Int) {w i : Nat} (h : i < w) : bit (x % 2 ^ w) i = bit x i :=
  bit_congr h ⟨-(x / 2 ^ w), by have := Int.mul_ediv_add_emod x (2 ^ w); linarith [mul_comm (2 ^ w : Int) (x / 2 ^ w)]⟩

omit [Arch] in
private theorem bit_minus_one (i : Nat) : bit (-1) i = true := by
  have h := bit_not 0 i
  have hz : bit 0 i = false := bit_nonneg_high (d := 0) (le_refl _) (by decide) (Nat.zero_le i)
  rw [hz] at h
  simpa using h

omit [Arch] in
/-- a value with a bit set beyond `k` -/
private theorem big_bit {x : Int} {w k : Nat} (h0 : 0 ≤ x) (hx : x < 2 ^ w) (hk : 2 ^ k ≤ x) : ∃ i, k ≤ i ∧ i < w ∧ bit x i = true := by
  by_contra hn
  have hz : x / 2 ^ k = 0 := by
    apply bit_ext
    intro i
    have e : bit (x / 2 ^ k) i = bit x (k + i) := by
      unfold bit
      rw [Int.ediv_ediv_of_nonneg (Int.le_of_lt (pos k)), ← pow_add]
    have hz : bit 0 i = false := bit_nonneg_high (d := 0) (le_refl _) (by decide) (Nat.zero_le i)
    rw [e, hz]
    by_cases hi : k + i < w
    · by_contra hb
      exact hn ⟨k + i, by omega, hi, by simpa using hb⟩
    · exact bit_nonneg_high h0 hx (by omega)
  have := Int.mul_ediv_add_emod x (2 ^ k)
  rw [hz] at this
  have := Int.emod_lt_of_pos x (pos k)
  omega

omit [Arch] in
private theorem pattern_le {w : Nat} {T : Opd} (hf : Within w T) {t : Int} (ht : T.Has t) : t % 2 ^ w ≤ topPattern w T := by
  have p := pos w
  have a1 := ht.1; have a2 := ht.2
  have f1 := hf.1; have f2 := hf.2
  unfold topPattern
  split_ifs with h
  · have := Int.emod_lt_of_pos t p; omega
  · by_cases hn : 0 ≤ T.lo
    · rw [Int.emod_eq_of_lt (by omega) (by omega), Int.emod_eq_of_lt (by omega) (by omega)]; exact a2
    · have hm : T.hi < 0 := by omega
      have e : ∀ x : Int, -2 ^ w ≤ x → x < 0 → x % 2 ^ w = x + 2 ^ w := by
        intro x h1 h2
        rw [← Int.add_emod_right]; exact Int.emod_eq_of_lt (by omega) (by omega)
      rw [e t (by omega) (by omega), e T.hi (by omega) hm]; omega

/-- the type of a bitwise operator -/
private theorem bitTy_iff (o : Bitwise) {R : ITy} (hR : R.Ok) {T U S : Opd} :
    bitTy o.pick R T U = .ret S ↔ S = Opd.range R 0 (2 ^ sbits (o.pick (T.hi % 2 ^ R.bits) (U.hi % 2 ^ R.bits)) - 1) ∧
      R.In (2 ^ sbits (o.pick (T.hi % 2 ^ R.bits) (U.hi % 2 ^ R.bits)) - 1) := by
  have p := pos R.bits
  have h1 := Int.emod_nonneg T.hi (ne_of_gt p)
  have h2 := Int.emod_nonneg U.hi (ne_of_gt p)
  have h3 := Int.emod_lt_of_pos T.hi p
  have h4 := Int.emod_lt_of_pos U.hi p
  have hu : ∀ x : Int, 0 ≤ x → x < 2 ^ R.bits → R.toUnsigned.In x := by
    intro x hx hy
    have e := conv_toUnsigned R x
    rw [Int.emod_eq_of_lt hx hy] at e
    rw [← e]; exact conv_in _ _
  have hp : R.toUnsigned.In (o.pick (T.hi % 2 ^ R.bits) (U.hi % 2 ^ R.bits)) ∧
      0 ≤ o.pick (T.hi % 2 ^ R.bits) (U.hi % 2 ^ R.bits) := by
    rcases (pick_cases o (T.hi % 2 ^ R.bits) (U.hi % 2 ^ R.bits)).1 with h | h <;> rw [h]
    · exact ⟨hu _ h1 h3, h1⟩
    · exact ⟨hu _ h2 h4, h2⟩
  unfold bitTy
  dsimp only
  rw [conv_toUnsigned, conv_toUnsigned, static_ret (roundOut_nonneg (T := R.toUnsigned) hR hp.1 hp.2 (Or.inl rfl)), ret_bind]
  constructor
  · intro h
    split_ifs at h with hin
    cases h; exact ⟨rfl, hin⟩
  · rintro ⟨rfl, hin⟩
    rw [if_pos hin]

/-- Which bitwise operators compile: all with an unsigned result type; with a signed one those for which the larger - for `&` the
smaller - of the upper ends, as bit patterns, is not negative. -/
theorem C78_compiles (pp : PP) (o : Bitwise) (T U : Opd) (R : ITy) (hR : R.Ok) (hres : pp.result o.binOp T U = .ret R) (t u : Int) :
    ((∃ v, bitwise pp o T U t u = .ret v) ↔
      R.signed = false ∨ bothOr1 o (T.hi % 2 ^ R.bits ≤ R.max) (U.hi % 2 ^ R.bits ≤ R.max)) ∧
    ((∃ S, bitwiseTy pp o T U = .ret S) ↔
      R.signed = false ∨ bothOr1 o (T.hi % 2 ^ R.bits ≤ R.max) (U.hi % 2 ^ R.bits ≤ R.max)) := by
  have key : (∃ S, bitTy o.pick R T U = .ret S) ↔
      R.signed = false ∨ bothOr1 o (T.hi % 2 ^ R.bits ≤ R.max) (U.hi % 2 ^ R.bits ≤ R.max) := by
    have p := pos R.bits
    have h1 := Int.emod_nonneg T.hi (ne_of_gt p)
    have h2 := Int.emod_nonneg U.hi (ne_of_gt p)
    have h3 := Int.emod_lt_of_pos T.hi p
    have h4 := Int.emod_lt_of_pos U.hi p
    generalize hx : T.hi % 2 ^ R.bits = x at *
    generalize hy : U.hi % 2 ^ R.bits = y at *
    have hpk : R.In (2 ^ sbits (o.pick x y) - 1) ↔ o.pick x y ≤ R.max := by
      have h0 : 0 ≤ o.pick x y := by rcases (pick_cases o x y).1 with h | h <;> rw [h] <;> assumption
      have hlt := lt_two_pow_sbits h0
      have hm := R.min_nonpos
      constructor
      · intro h; have := h.2; omega
      · intro h
        have hd := sbits_le_digits (S := R) (t := o.pick x y) ⟨by omega, h⟩
        have := pow_le_pow_right₀ (show (1 : Int) ≤ 2 by decide) hd
        have := pos (sbits (o.pick x y))
        refine ⟨by omega, ?_⟩
        unfold ITy.max; omega
    have hpm : o.pick x y ≤ R.max ↔ bothOr1 o (x ≤ R.max) (y ≤ R.max) := by
      cases o <;> simp only [Bitwise.pick, pickMin, pickMax, bothOr1] <;> split_ifs <;> omega
    have hex : (∃ S, bitTy o.pick R T U = .ret S) ↔ R.In (2 ^ sbits (o.pick x y) - 1) := by
      constructor
      · rintro ⟨S, h⟩
        have := ((bitTy_iff o hR).1 h).2
        rwa [hx, hy] at this
      · intro h
        exact ⟨_, (bitTy_iff o hR).2 ⟨rfl, by rw [hx, hy]; exact h⟩⟩
    rw [hex, hpk, hpm]
    constructor
    · exact Or.inr
    · rintro (h | h)
      · have e : R.max = 2 ^ R.bits - 1 := by unfold ITy.max ITy.digits; rw [h]; rfl
        rw [← hpm, e]
        rcases (pick_cases o x y).1 with h | h <;> rw [h] <;> omega
      · exact h
  constructor
  · rw [← key]
    constructor
    · rintro ⟨v, h⟩
      unfold bitwise at h
      rw [hres, ret_bind] at h
      rcases hb : bitTy o.pick R T U with S | e | f
      · exact ⟨S, rfl⟩
      · cases o <;> simp only [Bitwise.run, Bitwise.pick, runOr, runAnd, runXor] at h hb <;> rw [hb] at h <;> cases h
      · cases o <;> simp only [Bitwise.run, Bitwise.pick, runOr, runAnd, runXor] at h hb <;> rw [hb] at h <;> cases h
    · rintro ⟨S, h⟩
      unfold bitwise
      rw [hres, ret_bind]
      cases o <;> simp only [Bitwise.run, Bitwise.pick, runOr, runAnd, runXor] at h ⊢ <;> rw [h] <;> exact ⟨_, rfl⟩
  · rw [← key]
    unfold bitwiseTy
    rw [hres, ret_bind]

/-- A value `v` of type `R` is below `2 ^ k` exactly if the bits from `k` on are clear. -/
private theorem small_iff {R : ITy} {v : Int} (hv : R.In v) {k : Nat} (hk : k ≤ R.digits) (hkb : R.signed = true → k < R.bits) :
    (0 ≤ v ∧ v ≤ 2 ^ k - 1) ↔ ∀ i, k ≤ i → i < R.bits → bit v i = false := by
  constructor
  · rintro ⟨h0, h1⟩ i hi _
    exact bit_nonneg_high h0 (by omega) hi
  · intro h
    have := small_of_bits (n := k) hv (fun i hi => by
      by_cases hb : i < R.bits
      · exact h i hi hb
      · have e := bit_conv R v i
        rw [conv_of_in hv, if_neg hb] at e
        rw [e]
        rcases hs : R.signed with _ | _
        · rfl
        · have hp := R.bits_pos
          rw [h (R.bits - 1) (by have := hkb hs; omega) (by omega)]; rfl)
    omega

/-- Exactly which bitwise operators stay within the bounds of their type: with the largest bit patterns that the operand types
allow, both - for `&` one of them - must be within the upper bound. So an operand that can be negative is fine only if the
other one (for `&`) is a mask that the bound covers, or if the result type is unsigned and its bound is its maximum. -/
theorem C78_bounds (pp : PP) (o : Bitwise) (T U S : Opd) (hT : T.lo ≤ T.hi) (hU : U.lo ≤ U.hi) (R : ITy) (hR : R.Ok)
    (hres : pp.result o.binOp T U = .ret R) (hS : bitwiseTy pp o T U = .ret S) (fT : Within R.bits T) (fU : Within R.bits U) :
    (∀ t u v, T.Has t → U.Has u → bitwise pp o T U t u = .ret v → S.Has v) ↔
      bothOr1 o (topPattern R.bits T ≤ S.hi) (topPattern R.bits U ≤ S.hi) := by
  have hex : ∀ t u, ∃ v, bitwise pp o T U t u = .ret v := fun t u =>
    ((C78_compiles pp o T U R hR hres t u).1).2 (((C78_compiles pp o T U R hR hres t u).2).1 ⟨S, hS⟩)
  unfold bitwiseTy at hS
  rw [hres, ret_bind, bitTy_iff o hR] at hS
  obtain ⟨rfl, hin⟩ := hS
  have p := pos R.bits
  have x0 := Int.emod_nonneg T.hi (ne_of_gt p)
  have y0 := Int.emod_nonneg U.hi (ne_of_gt p)
  have x1 := Int.emod_lt_of_pos T.hi p
  have y1 := Int.emod_lt_of_pos U.hi p
  obtain ⟨pc, pm⟩ := pick_cases o (T.hi % 2 ^ R.bits) (U.hi % 2 ^ R.bits)
  have hl : 0 ≤ o.pick (T.hi % 2 ^ R.bits) (U.hi % 2 ^ R.bits) := by rcases pc with h | h <;> rw [h] <;> assumption
  have hlt := lt_two_pow_sbits hl
  generalize hk : sbits (o.pick (T.hi % 2 ^ R.bits) (U.hi % 2 ^ R.bits)) = k at *
  show _ ↔ bothOr1 o (topPattern R.bits T ≤ 2 ^ k - 1) (topPattern R.bits U ≤ 2 ^ k - 1)
  have hkd : k ≤ R.digits := by
    have h2 := hin.2
    unfold ITy.max at h2
    exact (Nat.pow_le_pow_iff_right (show 1 < 2 by decide)).1 (by exact_mod_cast (show (2 : Int) ^ k ≤ 2 ^ R.digits by omega))
  have hkb : R.signed = true → k < R.bits := by
    intro h
    have hb := R.bits_pos
    unfold ITy.digits at hkd; rw [h] at hkd; simp at hkd; omega
  have hkb' : k ≤ R.bits := by
    have : R.digits ≤ R.bits := by unfold ITy.digits; split <;> omega
    omega
  -- the bits of the result
  have hv : ∀ t u v, bitwise pp o T U t u = .ret v → ((Opd.range R 0 (2 ^ k - 1)).Has v ↔
      ∀ i, k ≤ i → i < R.bits → logic o (bit t i) (bit u i) = false) := by
    intro t u v h
    obtain ⟨h1, h2⟩ := C27_bits pp o T U t u v R hres h
    rw [show (Opd.range R 0 (2 ^ k - 1)).Has v ↔ _ from small_iff h1 hkd hkb]
    constructor
    · intro g i hi hb; rw [← h2 i hb]; exact g i hi hb
    · intro g i hi hb; rw [h2 i hb]; exact g i hi hb
  have low : ∀ {X : Opd}, Within R.bits X → topPattern R.bits X ≤ 2 ^ k - 1 → ∀ t, X.Has t → ∀ i, k ≤ i → i < R.bits →
      bit t i = false := by
    intro X fX h t ht i hi hb
    rw [← bit_mod t hb]
    have := pattern_le fX ht
    exact bit_nonneg_high (Int.emod_nonneg t (ne_of_gt p)) (by omega) hi
  -- an operand type whose largest pattern is too large contains -1 or has a large upper end
  have top : ∀ {X : Opd}, ¬ topPattern R.bits X ≤ 2 ^ k - 1 → X.hi % 2 ^ R.bits < 2 ^ k → X.Has (-1) := by
    intro X h h2
    unfold topPattern at h
    split_ifs at h with hc
    · exact ⟨by omega, by omega⟩
    · omega
  have wit : ∀ {X : Opd}, X.lo ≤ X.hi → ¬ topPattern R.bits X ≤ 2 ^ k - 1 →
      ∃ t i, X.Has t ∧ k ≤ i ∧ i < R.bits ∧ bit t i = true := by
    intro X hX h
    unfold topPattern at h
    split_ifs at h with hc
    · have hlt : (2 : Int) ^ k < 2 ^ R.bits := by omega
      have : k < R.bits := (Nat.pow_lt_pow_iff_right (show 1 < 2 by decide)).1 (by exact_mod_cast hlt)
      exact ⟨-1, k, ⟨by omega, by omega⟩, le_refl _, this, bit_minus_one k⟩
    · obtain ⟨i, h1, h2, h3⟩ := big_bit (Int.emod_nonneg X.hi (ne_of_gt p)) (Int.emod_lt_of_pos X.hi p)
        (show 2 ^ k ≤ X.hi % 2 ^ R.bits by omega)
      exact ⟨X.hi, i, ⟨hX, le_refl _⟩, h1, h2, by rw [← bit_mod X.hi h2]; exact h3⟩
  have hiT : T.hi % 2 ^ R.bits < 2 ^ k → ∀ i, k ≤ i → i < R.bits → bit T.hi i = false := fun h i hi hb => by
    rw [← bit_mod T.hi hb]; exact bit_nonneg_high x0 h hi
  have hiU : U.hi % 2 ^ R.bits < 2 ^ k → ∀ i, k ≤ i → i < R.bits → bit U.hi i = false := fun h i hi hb => by
    rw [← bit_mod U.hi hb]; exact bit_nonneg_high y0 h hi
  constructor
  · intro h
    by_cases hand : o = .band
    · subst hand
      show _ ∨ _
      by_contra hn
      rw [not_or] at hn
      rcases pc with e | e
      · rw [e] at hlt
        obtain ⟨u, i, hu, h1, h2, h3⟩ := wit hU hn.2
        obtain ⟨v, ev⟩ := hex (-1) u
        have := (hv _ _ v ev).1 (h _ _ v (top hn.1 hlt) hu ev) i h1 h2
        rw [bit_minus_one, h3] at this
        cases this
      · rw [e] at hlt
        obtain ⟨t, i, ht, h1, h2, h3⟩ := wit hT hn.1
        obtain ⟨v, ev⟩ := hex t (-1)
        have := (hv _ _ v ev).1 (h _ _ v ht (top hn.2 hlt) ev) i h1 h2
        rw [bit_minus_one, h3] at this
        cases this
    · obtain ⟨q1, q2⟩ := pm hand
      have both : topPattern R.bits T ≤ 2 ^ k - 1 ∧ topPattern R.bits U ≤ 2 ^ k - 1 := by
        constructor
        · by_contra hn
          obtain ⟨t, i, ht, h1, h2, h3⟩ := wit hT hn
          obtain ⟨v, ev⟩ := hex t U.hi
          have := (hv _ _ v ev).1 (h _ _ v ht ⟨hU, le_refl _⟩ ev) i h1 h2
          rw [hiU (by omega) i h1 h2, h3] at this
          cases o
          · cases this
          · exact hand rfl
          · cases this
        · by_contra hn
          obtain ⟨u, i, hu, h1, h2, h3⟩ := wit hU hn
          obtain ⟨v, ev⟩ := hex T.hi u
          have := (hv _ _ v ev).1 (h _ _ v ⟨hT, le_refl _⟩ hu ev) i h1 h2
          rw [hiT (by omega) i h1 h2, h3] at this
          cases o
          · cases this
          · exact hand rfl
          · cases this
      cases o
      · exact both
      · exact absurd rfl hand
      · exact both
  · intro h t u v ht hu ev
    rw [hv t u v ev]
    intro i hi hb
    cases o
    · rw [low fT h.1 t ht i hi hb, low fU h.2 u hu i hi hb]; rfl
    · rcases h with h | h
      · rw [low fT h t ht i hi hb]; rfl
      · rw [low fU h u hu i hi hb]; simp [logic]
    · rw [low fT h.1 t ht i hi hb, low fU h.2 u hu i hi hb]; rfl

/-- `&` with a mask: if the result type represents both operands, and one of them has no negative values and is within the bound of
the type of the result, then the operation compiles, and the value is right and within the bounds. The other operand may be
negative. -/
theorem C27_mask_partial (pp : PP) (T U : Opd) (hT : T.lo ≤ T.hi) (hU : U.lo ≤ U.hi) (R : ITy) (hR : R.Ok)
    (hres : pp.result .band T U = .ret R) (iT : R.In T.lo ∧ R.In T.hi) (iU : R.In U.lo ∧ R.In U.hi)
    (hm : (0 ≤ T.lo ∧ ∀ S, bitwiseTy pp .band T U = .ret S → T.hi ≤ S.hi) ∨
      (0 ≤ U.lo ∧ ∀ S, bitwiseTy pp .band T U = .ret S → U.hi ≤ S.hi))
    (t u : Int) (ht : T.Has t) (hu : U.Has u) :
    ∃ v S, bitwise pp .band T U t u = .ret v ∧ bitwiseTy pp .band T U = .ret S ∧ S.Wf ∧ S.kind = .safe ∧ S.Has v ∧
      ∀ i, bit v i = (bit t i && bit u i) := by
  have p := pos R.bits
  have mb : R.max < 2 ^ R.bits := by
    unfold ITy.max
    have : R.digits ≤ R.bits := by unfold ITy.digits; split <;> omega
    have := pow_le_pow_right₀ (show (1 : Int) ≤ 2 by decide) this
    omega
  have mn : - 2 ^ R.bits ≤ R.min := by
    have e := ITy.min_eq R
    split at e <;> omega
  have m0 := R.in_zero.2
  have a1 := ht.1; have a2 := ht.2; have b1 := hu.1; have b2 := hu.2
  have i1 := iT.1.1; have i2 := iT.2.2; have i3 := iU.1.1; have i4 := iU.2.2
  have it : R.In t := ⟨by omega, by omega⟩
  have iu : R.In u := ⟨by omega, by omega⟩
  have hc := C78_compiles pp .band T U R hR hres t u
  have ok : R.signed = false ∨ bothOr1 .band (T.hi % 2 ^ R.bits ≤ R.max) (U.hi % 2 ^ R.bits ≤ R.max) := by
    right
    rcases hm with ⟨hz, _⟩ | ⟨hz, _⟩
    · left; rw [Int.emod_eq_of_lt (by omega) (by omega)]; exact i2
    · right; rw [Int.emod_eq_of_lt (by omega) (by omega)]; exact i4
  obtain ⟨v, hv⟩ := hc.1.2 ok
  obtain ⟨S, hS⟩ := hc.2.2 ok
  have hb : bothOr1 .band (topPattern R.bits T ≤ S.hi) (topPattern R.bits U ≤ S.hi) := by
    have e : ∀ {X : Opd}, 0 ≤ X.lo → X.lo ≤ X.hi → X.hi ≤ R.max → topPattern R.bits X = X.hi := by
      intro X h0 h1 h2
      unfold topPattern
      rw [if_neg (by omega), Int.emod_eq_of_lt (by omega) (by omega)]
    rcases hm with ⟨h1, h2⟩ | ⟨h1, h2⟩
    · left; rw [e h1 hT i2]; exact h2 S hS
    · right; rw [e h1 hU i4]; exact h2 S hS
  have hin := (C78_bounds pp .band T U S hT hU R hR hres hS ⟨by omega, by omega⟩ ⟨by omega, by omega⟩).2 hb t u v ht hu hv
  have hS' := hS
  unfold bitwiseTy at hS
  rw [show Bitwise.band.binOp = .band from rfl, hres, ret_bind, bitTy_iff .band hR] at hS
  obtain ⟨rfl, hin'⟩ := hS
  refine ⟨v, _, hv, hS', ⟨hR, R.in_zero, hin', ?_, fun h => (by cases h), fun b h => (by cases h)⟩, rfl, hin,
    C27_all_bits pp .band T U t u v R hres it iu hv⟩
  exact le_trans hin.1 hin.2

/-- Complement under native promotion: `~x` compiles exactly if the promoted type is unsigned or the range of `x` reaches zero, and
then the result is within the bounds of its type exactly if the promoted type is unsigned or `x` is negative. -/
theorem C78_compl (T : Opd) (hT : T.Wf) (t : Int) (ht : T.Has t) :
    ((∃ v, compl .native T t = .ret v) ↔ (promote T.base).signed = false ∨ 0 ≤ T.hi) ∧
    ((∃ S, complTy .native T = .ret S) ↔ (promote T.base).signed = false ∨ 0 ≤ T.hi) ∧
    ∀ v S, compl .native T t = .ret v → complTy .native T = .ret S →
      (S.Has v ↔ (promote T.base).signed = false ∨ t < 0) := by
  have hR : (promote T.base).Ok := promote_ok hT.1
  have hp := C78_compiles .native .bxor (Opd.ofBuiltin (promote T.base)) T _ hR (compl_res T) (cNot T.base 0) t
  have p := pos (promote T.base).bits
  have hi : (promote T.base).In T.hi := in_promote hT.2.2.1
  have it : (promote T.base).In t := in_promote (hT.has_in ht)
  have mb : (promote T.base).max < 2 ^ (promote T.base).bits := by
    unfold ITy.max
    have : (promote T.base).digits ≤ (promote T.base).bits := by unfold ITy.digits; split <;> omega
    have := pow_le_pow_right₀ (show (1 : Int) ≤ 2 by decide) this
    omega
  have m0 : 0 ≤ (promote T.base).max := by have := (promote T.base).in_zero.2; omega
  have e1 : (Opd.ofBuiltin (promote T.base)).hi % 2 ^ (promote T.base).bits = (promote T.base).max :=
    Int.emod_eq_of_lt m0 mb
  have e2 : (promote T.base).signed = true → (T.hi % 2 ^ (promote T.base).bits ≤ (promote T.base).max ↔ 0 ≤ T.hi) := by
    intro hs
    have me := ITy.min_eq (promote T.base)
    rw [hs, if_pos rfl] at me
    have hb : (2 : Int) ^ (promote T.base).bits = 2 * ((promote T.base).max + 1) := by
      have hd : (promote T.base).bits = (promote T.base).digits + 1 := by
        have := (promote T.base).bits_pos
        unfold ITy.digits; rw [hs]; simp; omega
      unfold ITy.max
      rw [hd, pow_succ]; omega
    have h1 := hi.1; have h2 := hi.2
    constructor
    · intro h
      by_contra hn
      rw [← Int.add_emod_right, Int.emod_eq_of_lt (by omega) (by omega)] at h
      omega
    · intro h
      rw [Int.emod_eq_of_lt h (by omega)]; exact h2
  have hc : ((promote T.base).signed = false ∨ bothOr1 .bxor ((Opd.ofBuiltin (promote T.base)).hi % 2 ^ (promote T.base).bits ≤
      (promote T.base).max) (T.hi % 2 ^ (promote T.base).bits ≤ (promote T.base).max)) ↔
      (promote T.base).signed = false ∨ 0 ≤ T.hi := by
    rw [e1]
    rcases hs : (promote T.base).signed with _ | _
    · simp
    · simp only [Bool.true_eq_false, false_or]
      show (_ ∧ _) ↔ _
      rw [e2 hs]
      exact ⟨fun h => h.2, fun h => ⟨le_refl _, h⟩⟩
  rw [hc] at hp
  refine ⟨hp.1, hp.2, fun v S hv hS => ?_⟩
  have hval := C38_compl_value T hT t v ht hv
  have hok := hp.2.1 ⟨S, hS⟩
  unfold complTy bitwiseTy at hS
  rw [show PP.native.result (Bitwise.binOp .bxor) (Opd.ofBuiltin (promote T.base)) T = .ret (promote T.base) from compl_res T,
    ret_bind, bitTy_iff .bxor hR, e1] at hS
  obtain ⟨rfl, hin⟩ := hS
  have hmax : Bitwise.pick .bxor (promote T.base).max (T.hi % 2 ^ (promote T.base).bits) ≥ (promote T.base).max :=
    ((pick_cases .bxor _ _).2 nofun).1
  have hlt := lt_two_pow_sbits (t := Bitwise.pick .bxor (promote T.base).max (T.hi % 2 ^ (promote T.base).bits)) (by omega)
  generalize sbits (Bitwise.pick .bxor (promote T.base).max (T.hi % 2 ^ (promote T.base).bits)) = k at *
  have hk := hin.2
  have a1 := it.1; have a2 := it.2
  have me := ITy.min_eq (promote T.base)
  show (0 ≤ v ∧ v ≤ 2 ^ k - 1) ↔ _
  rcases hs : (promote T.base).signed with _ | _ <;> rw [hs] at hval me <;> simp at hval me
  · subst hval
    refine ⟨fun _ => Or.inl rfl, fun _ => ⟨by omega, by omega⟩⟩
  · subst hval
    simp only [Bool.true_eq_false, false_or]
    omega

end

/-! ### operand types meeting the hypotheses -/

section
attribute [local instance] lp64

-- `safe<int> & safe_unsigned_range<0, 15>`-like masks are fine, masks wider than the bound are not
example : bitwiseTy .native .band (Opd.ofSafe i32) (Opd.range i32 0 15) = .ret (Opd.range i32 0 15) ∧
    Within i32.bits (Opd.ofSafe i32) ∧ topPattern i32.bits (Opd.range i32 0 15) = 15 ∧
    bitwise .native .band (Opd.ofSafe i32) (Opd.range i32 0 15) (-3) 15 = .ret 13 := by decide +kernel
example : bitwiseTy .native .band (Opd.range i32 (-10) 3) (Opd.range i32 0 100) = .ret (Opd.range i32 0 3) ∧
    topPattern i32.bits (Opd.range i32 (-10) 3) = 4294967295 ∧ topPattern i32.bits (Opd.range i32 0 100) = 100 := by
  decide +kernel
-- `unsigned | int` is fine, `safe_unsigned_range<0, 100> | int` is not: the bound is 2^31-1, the value of `0u | -1` is 2^32-1
example : bitwiseTy .native .bor (Opd.ofSafe u32) (Opd.ofSafe i32) = .ret (Opd.ofSafe u32) ∧
    topPattern u32.bits (Opd.ofSafe i32) = 4294967295 ∧
    bitwiseTy .native .bor (Opd.range u32 0 100) (Opd.ofSafe i32) = .ret (Opd.range u32 0 2147483647) ∧
    bitwise .native .bor (Opd.range u32 0 100) (Opd.ofSafe i32) 0 (-1) = .ret 4294967295 := by decide +kernel
example : compl .native (Opd.range i32 (-5) 5) (-3) = .ret 2 ∧ compl .native (Opd.range i32 (-5) 5) 3 = .ret (-4) ∧
    compl .native (Opd.range i32 (-5) (-1)) (-3) = .fault .illFormed := by decide +kernel

end
end Verif.Props
