import Verif.Props.Stream

/-!
C90: all outcomes of stream input.
-/

namespace Verif.Spec

/-- nothing can be read: the stream has reached its end or has failed, or has nothing but white space -/
def Stuck (s : IStream) : Prop := s.eof = true ∨ s.fail = true ∨ ∀ c ∈ s.buf, isWs c = true

/-- the first character that is not white space is a minus sign -/
def MinusFirst (b : List Char) : Prop := ∃ ws r, b = ws ++ '-' :: r ∧ ∀ c ∈ ws, isWs c = true

/-- something can be read, but it is not a number -/
def IsText (s : IStream) : Prop := ¬ Stuck s ∧ ∀ neg n rest, ¬ NumberAt s.buf neg n rest

/-- no digit comes first -/
def NoDigit (b : List Char) : Prop := ∀ c r, b = c :: r → c ∉ ['0', '1', '2', '3', '4', '5', '6', '7', '8', '9']

/-- the characters that are left when no number can be read: white space is skipped, and a sign -/
def TextLeft (b rest : List Char) : Prop :=
  ∃ ws sg, b = ws ++ sg ++ rest ∧ (∀ c ∈ ws, isWs c = true) ∧ NoDigit rest ∧
    (sg = ['+'] ∨ sg = ['-'] ∨ sg = [] ∧ ∃ c r, rest = c :: r ∧ isWs c = false ∧ c ≠ '+' ∧ c ≠ '-')

/-- the value of the type that is closest to the number -/
def nearest (V : ITy) (n : Int) : Int := max V.min (min V.max n)

end Verif.Spec

namespace Verif.Props
open Spec

private theorem drop_all {b : List Char} : b.dropWhile isWs = [] ↔ ∀ c ∈ b, isWs c = true := by
  induction b with
  | nil => simp
  | cons c r ih =>
    by_cases h : isWs c = true
    · rw [List.dropWhile_cons_of_pos h, ih]; simp [h]
    · rw [List.dropWhile_cons_of_neg h]
      simp [h]

private theorem minus_iff {b : List Char} : MinusFirst b ↔ (b.dropWhile isWs).head? = some '-' := by
  constructor
  · rintro ⟨ws, r, rfl, hw⟩
    have : (ws ++ '-' :: r).dropWhile isWs = '-' :: r := by
      refine dropWhile_ws hw ?_
      intro c hc
      cases hc; decide
    rw [this]; rfl
  · intro h
    refine ⟨b.takeWhile isWs, (b.dropWhile isWs).tail, ?_, fun c hc => ?_⟩
    · conv_lhs => rw [← List.takeWhile_append_dropWhile (p := isWs) (l := b)]
      rcases hd : b.dropWhile isWs with _ | ⟨c, r⟩
      · rw [hd] at h; cases h
      · rw [hd] at h; cases h; rfl
    · exact (List.all_eq_true.1 (List.all_takeWhile (p := isWs) (l := b))) c hc

private theorem stuck_extract {α : Type} {V : ITy} {st : Int → α} {old : α} {s : IStream} (h : Stuck s) :
    (s.extract V st old).1 = old ∧ (s.extract V st old).2.fail = true := by
  unfold IStream.extract IStream.sentry
  by_cases hg : (s.eof || s.fail) = true
  · rw [if_pos hg]; exact ⟨rfl, rfl⟩
  · rw [if_neg hg]
    simp only [Bool.not_eq_true, Bool.or_eq_false_iff] at hg
    have hb : (s.buf.dropWhile isWs).isEmpty = true := by
      rcases h with h | h | h
      · rw [hg.1] at h; cases h
      · rw [hg.2] at h; cases h
      · simpa using drop_all.2 h
    dsimp only
    rw [if_pos hb]
    exact ⟨rfl, rfl⟩

private theorem not_stuck {s : IStream} (h : ¬ Stuck s) : (s.eof || s.fail) = false ∧ s.buf.dropWhile isWs ≠ [] := by
  unfold Stuck at h
  push Not at h
  obtain ⟨h1, h2, c, h3, h4⟩ := h
  refine ⟨by simp [h1, h2], fun g => h4 (drop_all.1 g c h3)⟩

private theorem text_extract {α : Type} {V : ITy} {st : Int → α} {old : α} {s : IStream} (h : IsText s) :
    (s.extract V st old).1 = st 0 ∧ (s.extract V st old).2.fail = true := by
  obtain ⟨h1, h2⟩ := h
  obtain ⟨h1, h3⟩ := not_stuck h1
  unfold IStream.extract IStream.sentry
  rw [if_neg (by simp [h1])]
  dsimp only
  rw [if_neg (show ¬ (s.buf.dropWhile isWs).isEmpty = true by simpa using h3)]
  dsimp only
  rw [if_pos rfl]
  rcases hsc : scan (s.buf.dropWhile isWs) with ⟨neg, ds, rest⟩
  dsimp only
  by_cases hd : ds.isEmpty = true
  · rw [if_pos hd]; exact ⟨rfl, rfl⟩
  · exact absurd (scan_number hsc (by simpa using hd)) (h2 _ _ _)

private theorem stage3_nearest {V : ITy} {neg : Bool} {n : Nat} (hn : V.signed = false → neg = false) :
    stage3 V neg n = (nearest V (if neg then -(n : Int) else n), decide (¬ V.In (if neg then -(n : Int) else n))) := by
  have hm := V.min_le_max
  unfold stage3 nearest ITy.In
  rcases hs : V.signed with _ | _
  · obtain rfl := hn hs
    simp only [Bool.false_eq_true, if_false]
    have h0 := ITy.min_unsigned hs
    split
    · exact Prod.ext (by simp only; omega) (by simp only; rw [eq_comm, decide_eq_true_iff]; omega)
    · rw [conv_of_in (T := V) ⟨by omega, by omega⟩]
      exact Prod.ext (by simp only; omega) (by simp only; rw [eq_comm, decide_eq_false_iff_not]; omega)
  · simp only [if_true]
    generalize (if neg = true then -(n : Int) else n) = w
    split
    · exact Prod.ext (by simp only; omega) (by simp only; rw [eq_comm, decide_eq_true_iff]; omega)
    · split
      · exact Prod.ext (by simp only; omega) (by simp only; rw [eq_comm, decide_eq_true_iff]; omega)
      · exact Prod.ext (by simp only; omega) (by simp only; rw [eq_comm, decide_eq_false_iff_not]; omega)

private theorem number_extract {α : Type} {V : ITy} {st : Int → α} {old : α} {s : IStream} {neg : Bool} {n : Int} {rest : List Char}
    (he : s.eof = false) (hf : s.fail = false) (hN : NumberAt s.buf neg n rest) (hn : V.signed = false → neg = false) :
    s.extract V st old = (st (nearest V n), ⟨rest, rest.isEmpty, decide (¬ V.In n)⟩) := by
  obtain ⟨ds, h1, h2, h3, rfl, _⟩ := number_scan hN
  unfold IStream.extract IStream.sentry
  rw [if_neg (by simp [he, hf])]
  dsimp only
  rw [if_neg (show ¬ (s.buf.dropWhile isWs).isEmpty = true by simpa using h1)]
  dsimp only
  rw [if_pos rfl, h2]
  dsimp only
  rw [if_neg (by simpa using h3), stage3_nearest hn]

private theorem nearest_in {V : ITy} {n : Int} (h : V.In n) : nearest V n = n := by
  unfold nearest; have := h.1; have := h.2; omega

section
variable [Arch]

/-- how the stream is left by the preparation for an unsigned type -/
private theorem prep_stuck {T : Opd} {s : IStream} (h : Stuck s ∨ (T.base.signed = false ∧ MinusFirst s.buf)) : Stuck (inputPrep T s) := by
  rcases hs : T.base.signed with _ | _
  · rcases prep_cases hs s with (b | b) | ⟨k1, k2, k3, k4⟩
    · exact Or.inr (Or.inl b)
    · exact Or.inl b
    · exfalso
      rcases h with h | ⟨_, h⟩
      · rcases h with h | h | h
        · rw [k1] at h; cases h
        · rw [k2] at h; cases h
        · have := drop_all.2 h
          revert k3
          unfold inputPrep IStream.ws
          rw [hs, if_neg (by simp), if_neg (by simp [k1, k2])]
          dsimp only
          rw [this]
          simp [IStream.peek]
      · exact k4 (minus_iff.1 h)
  · have e : inputPrep T s = s := by unfold inputPrep; rw [hs]; simp
    rw [e]
    rcases h with h | ⟨h, _⟩
    · exact h
    · rw [hs] at h; cases h

/-- the characters to be read are the same otherwise -/
private theorem prep_good {T : Opd} {s : IStream} (h : ¬ Stuck s) (hm : T.base.signed = false → ¬ MinusFirst s.buf) :
    (inputPrep T s).eof = false ∧ (inputPrep T s).fail = false ∧
    (inputPrep T s).buf.dropWhile isWs = s.buf.dropWhile isWs := by
  obtain ⟨h1, h2⟩ := not_stuck h
  simp only [Bool.or_eq_false_iff] at h1
  rcases hs : T.base.signed with _ | _
  · have hm := fun g => hm hs (minus_iff.2 g)
    unfold inputPrep IStream.ws
    rw [hs, if_neg (by simp), if_neg (by simp [h1])]
    dsimp only
    rcases he : s.buf.dropWhile isWs with _ | ⟨c, r⟩
    · exact absurd he h2
    · have hc : c ≠ '-' := by rintro rfl; rw [he] at hm; exact hm rfl
      have : (c :: r).dropWhile isWs = c :: r := by rw [← he, dropWhile_idem]
      simp [IStream.peek, h1.1, h1.2, hc, this]
  · have e : inputPrep T s = s := by unfold inputPrep; rw [hs]; simp
    rw [e]
    exact ⟨h1.1, h1.2, rfl⟩

private theorem number_same {a b rest : List Char} {neg : Bool} {n : Int} (e : a.dropWhile isWs = b.dropWhile isWs)
    (h : NumberAt b neg n rest) : NumberAt a neg n rest := by
  obtain ⟨ds, h1, h2, h3, rfl, _⟩ := number_scan h
  rw [← e] at h2
  exact scan_number h2 h3

private theorem number_not_stuck {s : IStream} (he : s.eof = false) (hf : s.fail = false) {rest : List Char} {neg : Bool} {n : Int}
    (h : NumberAt s.buf neg n rest) : ¬ Stuck s := by
  rintro (g | g | g)
  · rw [he] at g; cases g
  · rw [hf] at g; cases g
  · obtain ⟨_, h1, _⟩ := number_scan h
    exact h1 (drop_all.2 g)

private theorem static_ret {p : EP} (hp : p.ae = .throw) {T : Opd} (hT : T.Wf) {old : Int} {s : IStream}
    (hs : (input p T old s).1 ≠ .fault .illFormed) : inputStatic p T = .ret () := by
  rcases inputStatic_cases hp hT with e | ⟨e, _⟩
  · unfold input at hs; rw [e] at hs; exact absurd rfl hs
  · exact e

/-- Types that are not character types, with a policy that throws. Nothing can be read, or a minus sign comes first and the type is
unsigned: exception, the variable keeps its value. A number within the range is stored. A number that is a value of
the base type but out of range is stored, and then an exception is thrown. Any other number: the closest value of the base type
is stored, and an exception is thrown. Other text: zero is stored, and an exception is thrown. -/
theorem C90_outcomes (p : EP) (hp : p.ae = .throw) (T : Opd) (hT : T.Wf) (hc : T.base.lg ≠ 0) (old : Int) (s : IStream)
    (hs : (input p T old s).1 ≠ .fault .illFormed) :
    ((Stuck s ∨ (T.base.signed = false ∧ MinusFirst s.buf)) →
      (input p T old s).1 = .thrown .domain_error ∧ (input p T old s).2.1 = old ∧ (input p T old s).2.2.fail = true) ∧
    (∀ neg n rest, s.eof = false → s.fail = false → NumberAt s.buf neg n rest → (T.base.signed = false → neg = false) →
      (T.Has n → input p T old s = (.ret (), n, ⟨rest, rest.isEmpty, false⟩)) ∧
      (¬ T.Has n → T.base.In n → ∃ e, input p T old s = (.thrown e, n, ⟨rest, rest.isEmpty, false⟩)) ∧
      (¬ T.base.In n → input p T old s = (.thrown .domain_error, nearest T.base n, ⟨rest, rest.isEmpty, true⟩))) ∧
    (IsText s → ¬ (T.base.signed = false ∧ MinusFirst s.buf) →
      (input p T old s).1 = .thrown .domain_error ∧ (input p T old s).2.1 = 0 ∧ (input p T old s).2.2.fail = true) := by
  have hst := static_ret hp hT hs
  have hl : isCharTy T.base = false := by unfold isCharTy; simpa using hc
  have e : input p T old s = inputInt p T old s := by
    unfold input; rw [hst]; dsimp only; rw [hl]; rfl
  rw [e] at hs ⊢
  unfold inputInt at hs ⊢
  refine ⟨fun h => ?_, fun neg n rest he hf hN hn => ?_, fun h hm => ?_⟩
  · obtain ⟨h1, h2⟩ := stuck_extract (V := T.base) (st := id) (old := old) (prep_stuck h)
    rcases hx : (inputPrep T s).extract T.base id old with ⟨m, s'⟩
    rw [hx] at h1 h2
    dsimp only at h1 h2 ⊢
    rw [if_pos h2, dispatch_throw hp]
    exact ⟨rfl, h1, h2⟩
  · have hm : T.base.signed = false → ¬ MinusFirst s.buf := fun g k => by
      obtain ⟨_, _, _, _, _, h⟩ := number_scan hN
      have := h.1 (minus_iff.1 k)
      rw [hn g] at this; cases this
    obtain ⟨g1, g2, g3⟩ := prep_good (T := T) (number_not_stuck he hf hN) hm
    have hx := number_extract (V := T.base) (st := id) (old := old) g1 g2 (number_same g3 hN) hn
    rw [hx] at hs ⊢
    dsimp only [id] at hs ⊢
    by_cases hi : T.base.In n
    · have hd : decide (¬ T.base.In n) = false := by simpa using hi
      rw [hd, nearest_in hi] at hs ⊢
      simp only [Bool.false_eq_true, if_false] at hs ⊢
      rcases input_validate_cases hp hT hT.1 hi with w | ⟨w, w'⟩ | ⟨⟨x, w⟩, w'⟩
      · rw [w] at hs; exact absurd rfl hs
      · rw [w]
        exact ⟨fun _ => rfl, fun h => absurd w' h, fun h => absurd hi h⟩
      · rw [w]
        exact ⟨fun h => absurd h w', fun _ _ => ⟨x, rfl⟩, fun h => absurd hi h⟩
    · have hd : decide (¬ T.base.In n) = true := by simpa using hi
      rw [hd] at hs ⊢
      simp only [if_true]
      rw [dispatch_throw hp]
      exact ⟨fun h => absurd (hT.has_in h) hi, fun _ h => absurd h hi, fun _ => rfl⟩
  · obtain ⟨g1, g2, g3⟩ := prep_good (T := T) h.1 fun a b => hm ⟨a, b⟩
    have ht : IsText (inputPrep T s) := by
      refine ⟨?_, fun neg n rest g => h.2 neg n rest (number_same g3.symm g)⟩
      rintro (g | g | g)
      · rw [g1] at g; cases g
      · rw [g2] at g; cases g
      · have := drop_all.2 g
        rw [g3] at this
        exact (not_stuck h.1).2 this
    obtain ⟨h1, h2⟩ := text_extract (V := T.base) (st := id) (old := old) ht
    rcases hx : (inputPrep T s).extract T.base id old with ⟨m, s'⟩
    rw [hx] at h1 h2
    dsimp only at h1 h2 ⊢
    rw [if_pos h2, dispatch_throw hp]
    exact ⟨rfl, h1, h2⟩

/-- Character types, with a policy that throws. Nothing can be read: undefined behaviour. A number within the range is stored; for any
other number an exception is thrown and the variable keeps its value. Other text is taken for zero, without an exception if zero is within
the range; the stream has failed. -/
theorem C90_char_outcomes (p : EP) (hp : p.ae = .throw) (T : Opd) (hT : T.Wf) (hc : T.base.lg = 0) (old : Int) (s : IStream)
    (hs : (input p T old s).1 ≠ .fault .illFormed) :
    (Stuck s → (input p T old s).1 = .fault .ub) ∧
    (∀ neg n rest, s.eof = false → s.fail = false → NumberAt s.buf neg n rest →
      (T.Has n → input p T old s = (.ret (), n, ⟨rest, rest.isEmpty, false⟩)) ∧
      (¬ T.Has n → ∃ e, input p T old s = (.thrown e, old, ⟨rest, rest.isEmpty, decide (¬ tInt.In n)⟩))) ∧
    (IsText s → (input p T old s).2.2.fail = true ∧
      (T.Has 0 → (input p T old s).1 = .ret () ∧ (input p T old s).2.1 = 0) ∧
      (¬ T.Has 0 → (∃ e, (input p T old s).1 = .thrown e) ∧ (input p T old s).2.1 = old)) := by
  have hst := static_ret hp hT hs
  have hl : isCharTy T.base = true := by unfold isCharTy; simpa using hc
  have e : input p T old s = inputChar p T old s := by
    unfold input; rw [hst]; dsimp only; rw [hl]; rfl
  rw [e] at hs ⊢
  unfold inputChar at hs ⊢
  have hint : ∀ x, T.Has x → tInt.In x := fun x hx => by
    have : T.base.lg < Arch.intLg := by have := Arch.int16; omega
    have hpr : promote T.base = tInt := by unfold promote; rw [if_pos this]
    have := in_promote (hT.has_in hx)
    rw [hpr] at this; exact this
  have hsm : T.base.max < tInt.max ∧ tInt.min < T.base.min := by
    have h8 : (16 : Nat) ≤ tInt.bits := by
      show 16 ≤ 8 * 2 ^ Arch.intLg
      have := Nat.pow_le_pow_right (n := 2) (by omega) Arch.int16
      omega
    have hb : T.base.bits = 8 := by unfold ITy.bits; rw [hc]
    have hd : tInt.digits = tInt.bits - 1 := rfl
    have hp1 : (2 : Int) ^ 15 ≤ 2 ^ tInt.digits := by
      have := Nat.pow_le_pow_right (n := 2) (by omega) (show 15 ≤ tInt.digits by omega)
      exact_mod_cast this
    have m1 : tInt.max = 2 ^ tInt.digits - 1 := rfl
    have m2 : tInt.min = -2 ^ tInt.digits := rfl
    have m3 : T.base.max ≤ 255 ∧ -128 ≤ T.base.min := by
      unfold ITy.max ITy.min ITy.digits
      rw [hb]
      cases T.base.signed <;> simp
    rw [m1, m2]
    norm_num at hp1
    omega
  refine ⟨fun h => ?_, fun neg n rest he hf hN => ?_, fun h => ?_⟩
  · obtain ⟨h1, _⟩ := stuck_extract (V := tInt) (st := some) (old := none) h
    rcases hx : s.extract tInt some none with ⟨m, s'⟩
    rw [hx] at h1
    dsimp only at h1 ⊢
    subst h1
    rfl
  · have hx := number_extract (V := tInt) (st := some) (old := none) he hf hN (fun h => by cases h)
    rw [hx] at hs ⊢
    dsimp only at hs ⊢
    have hni : tInt.In (nearest tInt n) := by
      have := tInt.min_le_max
      unfold nearest ITy.In; omega
    have hnh : T.Has (nearest tInt n) ↔ T.Has n := by
      constructor
      · intro h
        have hb := hT.has_in h
        have b1 := hb.1; have b2 := hb.2
        have : nearest tInt n = n := by
          have := tInt.min_le_max
          unfold nearest at b1 b2 ⊢
          omega
        rwa [this] at h
      · intro h
        rwa [nearest_in (hint n h)]
    rcases input_validate_cases hp hT (show tInt.Ok from Arch.intMax) hni with w | ⟨w, w'⟩ | ⟨⟨x, w⟩, w'⟩
    · rw [w] at hs; exact absurd rfl hs
    · rw [w]
      have hh := hnh.1 w'
      have hd : decide (¬ tInt.In n) = false := by simpa using hint n hh
      rw [hd, nearest_in (hint n hh)]
      exact ⟨fun _ => rfl, fun h => absurd hh h⟩
    · rw [w]
      exact ⟨fun h => absurd (hnh.2 h) w', fun _ => ⟨x, rfl⟩⟩
  · obtain ⟨h1, h2⟩ := text_extract (V := tInt) (st := some) (old := none) h
    rcases hx : s.extract tInt some none with ⟨m, s'⟩
    rw [hx] at h1 h2 hs
    dsimp only at h1 h2 hs ⊢
    subst h1
    dsimp only at hs ⊢
    rcases input_validate_cases hp hT (show tInt.Ok from Arch.intMax) tInt.in_zero with w | ⟨w, w'⟩ | ⟨⟨x, w⟩, w'⟩
    · rw [w] at hs; exact absurd rfl hs
    · rw [w]
      exact ⟨h2, fun _ => ⟨rfl, rfl⟩, fun h => absurd w' h⟩
    · rw [w]
      exact ⟨h2, fun h => absurd h w', fun _ => ⟨⟨x, rfl⟩, rfl⟩⟩

/-- the white space of the classic locale: space, tab, line feed, vertical tab, form feed, carriage return -/
theorem C90_white (c : Char) : isWs c = true ↔ c ∈ [' ', '\t', '\n', '\x0b', '\x0c', '\r'] := by
  have key : ∀ k : Char, c = k ↔ c.toNat = k.toNat := fun k => ⟨fun h => by rw [h], fun h => Char.toNat_inj.1 h⟩
  unfold isWs
  simp only [List.mem_cons, List.not_mem_nil, or_false, Bool.or_eq_true, Bool.and_eq_true, beq_iff_eq, decide_eq_true_eq, key]
  have h1 : ' '.toNat = 32 := rfl
  have h2 : '\t'.toNat = 9 := rfl
  have h3 : '\n'.toNat = 10 := rfl
  have h4 : '\x0b'.toNat = 11 := rfl
  have h5 : '\x0c'.toNat = 12 := rfl
  have h6 : '\r'.toNat = 13 := rfl
  rw [h1, h2, h3, h4, h5, h6]
  omega

/-- the decimal digits -/
theorem C90_digit (c : Char) : isDig c = true ↔ c ∈ ['0', '1', '2', '3', '4', '5', '6', '7', '8', '9'] := by
  have key : ∀ k : Char, c = k ↔ c.toNat = k.toNat := fun k => ⟨fun h => by rw [h], fun h => Char.toNat_inj.1 h⟩
  unfold isDig
  simp only [List.mem_cons, List.not_mem_nil, or_false, Bool.and_eq_true, decide_eq_true_eq, key]
  have h : '0'.toNat = 48 ∧ '1'.toNat = 49 ∧ '2'.toNat = 50 ∧ '3'.toNat = 51 ∧ '4'.toNat = 52 ∧ '5'.toNat = 53 ∧ '6'.toNat = 54 ∧
    '7'.toNat = 55 ∧ '8'.toNat = 56 ∧ '9'.toNat = 57 := ⟨rfl, rfl, rfl, rfl, rfl, rfl, rfl, rfl, rfl, rfl⟩
  obtain ⟨h0, h1, h2, h3, h4, h5, h6, h7, h8, h9⟩ := h
  rw [h0, h1, h2, h3, h4, h5, h6, h7, h8, h9]
  omega

private theorem noDigit {r : List Char} (h : NoDigit r) : r.takeWhile isDig = [] ∧ r.dropWhile isDig = r := by
  rcases r with _ | ⟨c, r⟩
  · exact ⟨rfl, rfl⟩
  · have : ¬ isDig c = true := fun g => h c r rfl ((C90_digit c).1 g)
    exact ⟨List.takeWhile_cons_of_neg this, List.dropWhile_cons_of_neg this⟩

theorem textLeft {b rest : List Char} (h : TextLeft b rest) :
    b.dropWhile isWs ≠ [] ∧ ∃ neg, scan (b.dropWhile isWs) = (neg, [], rest) := by
  obtain ⟨ws, sg, rfl, hw, hd, hs⟩ := h
  obtain ⟨d1, d2⟩ := noDigit hd
  rw [List.append_assoc]
  rcases hs with rfl | rfl | ⟨rfl, c, r, rfl, c1, c2, c3⟩
  · rw [dropWhile_ws hw (by intro c hc; cases hc; decide)]
    exact ⟨by simp, false, by simp [scan, d1, d2]⟩
  · rw [dropWhile_ws hw (by intro c hc; cases hc; decide)]
    exact ⟨by simp, true, by simp [scan, d1, d2]⟩
  · rw [dropWhile_ws hw (by intro c' hc; cases hc; exact c1)]
    refine ⟨by simp, false, ?_⟩
    rw [List.nil_append]
    unfold scan
    split
    · rename_i h; cases h; exact absurd rfl c3
    · rename_i h; cases h; exact absurd rfl c2
    · rw [d1, d2]

private theorem extract_dead {α : Type} {V : ITy} {st : Int → α} {old : α} {s : IStream} (h : s.eof = true ∨ s.fail = true) :
    (s.extract V st old).2 = { s with fail := true } := by
  have hg : (s.eof || s.fail) = true := by simpa using h
  unfold IStream.extract IStream.sentry
  rw [if_pos hg]; rfl

private theorem extract_end {α : Type} {V : ITy} {st : Int → α} {old : α} {s : IStream} (he : s.eof = false) (hf : s.fail = false)
    (h : ∀ c ∈ s.buf, isWs c = true) : (s.extract V st old).2 = ⟨[], true, true⟩ := by
  unfold IStream.extract IStream.sentry
  rw [if_neg (by simp [he, hf])]
  dsimp only
  rw [if_pos (show (s.buf.dropWhile isWs).isEmpty = true by simpa using drop_all.2 h)]; rfl

private theorem extract_text {α : Type} {V : ITy} {st : Int → α} {old : α} {s : IStream} (he : s.eof = false) (hf : s.fail = false)
    {b rest : List Char} (hb : s.buf.dropWhile isWs = b.dropWhile isWs) (h : TextLeft b rest) :
    (s.extract V st old).2 = ⟨rest, rest.isEmpty, true⟩ := by
  obtain ⟨h1, neg, h2⟩ := textLeft h
  rw [← hb] at h1 h2
  unfold IStream.extract IStream.sentry
  rw [if_neg (by simp [he, hf])]
  dsimp only
  rw [if_neg (show ¬ (s.buf.dropWhile isWs).isEmpty = true by simpa using h1)]
  dsimp only
  rw [if_pos rfl, h2]
  rfl

/-- the stream afterwards is the one left by the extraction, for all policies -/
private theorem input_stream {p : EP} (hp : p.ae = .throw) {T : Opd} (hT : T.Wf) {old : Int} {s : IStream}
    (hs : (input p T old s).1 ≠ .fault .illFormed) :
    (T.base.lg = 0 → (input p T old s).2.2 = (s.extract tInt some none).2) ∧
    (T.base.lg ≠ 0 → (input p T old s).2.2 = ((inputPrep T s).extract T.base id old).2) := by
  have hst := static_ret hp hT hs
  constructor
  · intro hc
    have hl : isCharTy T.base = true := by unfold isCharTy; simpa using hc
    unfold input; rw [hst]; dsimp only; rw [if_pos hl]
    unfold inputChar
    rcases s.extract tInt some none with ⟨m, s'⟩
    rcases m with _ | m
    · rfl
    · dsimp only
      split <;> rfl
  · intro hc
    have hl : isCharTy T.base = false := by unfold isCharTy; simpa using hc
    unfold input; rw [hst]; dsimp only; rw [hl, if_neg (by simp)]
    unfold inputInt
    rcases (inputPrep T s).extract T.base id old with ⟨m, s'⟩
    dsimp only
    split
    · rfl
    · split <;> rfl

/-- The stream afterwards when no number is read, for all types. A stream that had ended or failed has failed and is otherwise
unchanged. If only white space was left, the stream is empty, at its end, and has failed. In front of a minus sign the stream of
an unsigned type stops (character types are read as `int`). In front of other text it stops after white space and a sign; it is
then at its end if nothing follows. -/
theorem C90_stream (p : EP) (hp : p.ae = .throw) (T : Opd) (hT : T.Wf) (old : Int) (s : IStream)
    (hs : (input p T old s).1 ≠ .fault .illFormed) :
    ((s.eof = true ∨ s.fail = true) → (input p T old s).2.2 = ⟨s.buf, s.eof, true⟩) ∧
    (s.eof = false → s.fail = false →
      ((∀ c ∈ s.buf, isWs c = true) → (input p T old s).2.2 = ⟨[], true, true⟩) ∧
      (T.base.signed = false → T.base.lg ≠ 0 → ∀ ws r, s.buf = ws ++ '-' :: r → (∀ c ∈ ws, isWs c = true) →
        (input p T old s).2.2 = ⟨'-' :: r, false, true⟩) ∧
      (∀ rest, TextLeft s.buf rest → (T.base.signed = true ∨ T.base.lg = 0 ∨ ¬ MinusFirst s.buf) →
        (input p T old s).2.2 = ⟨rest, rest.isEmpty, true⟩)) := by
  obtain ⟨hc, hi⟩ := input_stream hp hT hs
  have signed : T.base.signed = true → inputPrep T s = s := fun h => by unfold inputPrep; rw [h]; simp
  refine ⟨fun h => ?_, fun he hf => ⟨fun h => ?_, fun hu hl ws r hb hw => ?_, fun rest h hm => ?_⟩⟩
  · by_cases hl : T.base.lg = 0
    · rw [hc hl, extract_dead h]
    · rw [hi hl]
      rcases hb : T.base.signed with _ | _
      · have hg : (s.eof || s.fail) = true := by simpa using h
        have e : inputPrep T s = { s with fail := true } := by
          unfold inputPrep IStream.ws
          rw [hb, if_neg (by simp), if_pos hg]
          simp [IStream.peek]
        rw [e, extract_dead (Or.inr rfl)]
      · rw [signed hb, extract_dead h]
  · by_cases hl : T.base.lg = 0
    · rw [hc hl, extract_end he hf h]
    · rw [hi hl]
      rcases hb : T.base.signed with _ | _
      · have e : inputPrep T s = ⟨[], true, true⟩ := by
          unfold inputPrep IStream.ws
          rw [hb, if_neg (by simp), if_neg (by simp [he, hf]), drop_all.2 h]
          simp [IStream.peek]
        rw [e, extract_dead (Or.inl rfl)]
      · rw [signed hb, extract_end he hf h]
  · rw [hi hl]
    have hd : s.buf.dropWhile isWs = '-' :: r := by
      rw [hb]; exact dropWhile_ws hw (by intro c hc; cases hc; decide)
    have e : inputPrep T s = ⟨'-' :: r, false, true⟩ := by
      unfold inputPrep IStream.ws
      rw [hu, if_neg (by simp), if_neg (by simp [he, hf]), hd]
      simp [IStream.peek, he, hf]
    rw [e, extract_dead (Or.inr rfl)]
  · by_cases hl : T.base.lg = 0
    · rw [hc hl, extract_text he hf rfl h]
    · rw [hi hl]
      rcases hb : T.base.signed with _ | _
      · have hm : ¬ MinusFirst s.buf := by
          rcases hm with g | g | g
          · rw [hb] at g; cases g
          · exact absurd g hl
          · exact g
        have hn := (textLeft h).1
        have ns : ¬ Stuck s := by
          rintro (g | g | g)
          · rw [he] at g; cases g
          · rw [hf] at g; cases g
          · exact hn (drop_all.2 g)
        obtain ⟨g1, g2, g3⟩ := prep_good (T := T) ns (fun _ => hm)
        rw [extract_text g1 g2 g3 h]
      · rw [signed hb, extract_text he hf rfl h]

end

section
attribute [local instance] lp64

-- the cases of the last theorem, for `safe<short>` and `safe<unsigned short>`
example : input strictException (Opd.ofSafe i16) 7 ⟨[' ', '\t'], false, false⟩ = (.thrown .domain_error, 7, ⟨[], true, true⟩) := by
  decide +kernel
example : TextLeft [' ', '+', 'x'] ['x'] :=
  ⟨[' '], ['+'], rfl, by decide, by intro c r h; cases h; decide, Or.inl rfl⟩
example : input strictException (Opd.ofSafe i16) 7 ⟨[' ', '+', 'x'], false, false⟩ = (.thrown .domain_error, 0, ⟨['x'], false, true⟩) := by
  decide +kernel
example : input strictException (Opd.ofSafe i16) 7 ⟨['-'], false, false⟩ = (.thrown .domain_error, 0, ⟨[], true, true⟩) := by
  decide +kernel
example : input strictException (Opd.ofSafe u16) 7 ⟨['-'], false, false⟩ = (.thrown .domain_error, 7, ⟨['-'], false, true⟩) := by
  decide +kernel

-- what the cases are about
example : Stuck ⟨[' ', '\n'], false, false⟩ := Or.inr (Or.inr (by decide))
example : MinusFirst [' ', '-', '7'] := ⟨[' '], ['7'], rfl, by decide⟩
example : IsText ⟨['x'], false, false⟩ := by
  refine ⟨?_, ?_⟩
  · rintro (h | h | h)
    · cases h
    · cases h
    · exact absurd (h 'x' (by simp)) (by decide)
  · intro neg n rest h
    obtain ⟨ds, _, h2, h3, _⟩ := number_scan h
    have : scan (['x'].dropWhile isWs) = (false, [], ['x']) := by decide
    rw [this] at h2
    exact h3 (Prod.mk.inj (Prod.mk.inj h2).2).1.symm
example : NumberAt ['9', '9'] false 99 [] := ⟨[], [], ['9', '9'], rfl, by decide, by decide, by decide, nofun, Or.inr ⟨rfl, Or.inl rfl, by decide⟩⟩
-- and what happens then: `safe_unsigned_range<5, 10>` with 16 bits, `safe<signed char>`
example : input strictException (Opd.range u16 5 10) 7 ⟨[' '], false, false⟩ = (.thrown .domain_error, 7, ⟨[], true, true⟩) := by
  decide +kernel
example : input strictException (Opd.range u16 5 10) 7 ⟨['-', '6'], false, false⟩ = (.thrown .domain_error, 7, ⟨['-', '6'], false, true⟩) := by
  decide +kernel
example : input strictException (Opd.range u16 5 10) 7 ⟨['9', '9'], false, false⟩ =
    (.thrown .positive_overflow_error, 99, ⟨[], true, false⟩) := by decide +kernel
example : input strictException (Opd.range u16 5 10) 7 ⟨['9', '9', '9', '9', '9'], false, false⟩ =
    (.thrown .domain_error, 65535, ⟨[], true, true⟩) := by decide +kernel
example : input strictException (Opd.range i8 5 10) 7 ⟨['x'], false, false⟩ =
    (.thrown .negative_overflow_error, 7, ⟨['x'], false, true⟩) := by decide +kernel
example : input strictException (Opd.ofSafe i8) 7 ⟨['9', '9', '9', '9', '9', '9', '9', '9', '9', '9'], false, false⟩ =
    (.thrown .positive_overflow_error, 7, ⟨[], true, true⟩) := by decide +kernel

end
end Verif.Props
