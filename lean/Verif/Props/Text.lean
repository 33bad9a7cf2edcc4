import Verif.Text
import Verif.Props.Stream
import Verif.Props.Err
import Verif.Props.Lang

/-!
Property C85: the texts that the library prints of results, intervals and types tell everything: different contents have different texts.
-/

namespace Verif.Props
open Spec Lang

private theorem not_dig : isDig ',' = false ∧ isDig ']' = false ∧ isDig ' ' = false := by decide

private theorem print_inj {a b : Int} {r r' : List Char} (hr : ∀ c, r.head? = some c → isDig c = false)
    (hr' : ∀ c, r'.head? = some c → isDig c = false) (h : printInt a ++ r = printInt b ++ r') : a = b ∧ r = r' := by
  have h1 := (C60_iread _ _ _).2 ⟨_, C51_numeral a r hr⟩
  have h2 := (C60_iread _ _ _).2 ⟨_, C51_numeral b r' hr'⟩
  rw [h, h2] at h1
  have := Prod.mk.inj (Option.some.inj h1)
  exact ⟨this.1.symm, this.2.symm⟩

private theorem print_inj' {a b : Int} (h : printInt a = printInt b) : a = b :=
  (print_inj (r := []) (r' := []) (by simp) (by simp) (by rw [h])).1

private theorem split_at {c : Char} : ∀ {a b x y : List Char}, c ∉ a → c ∉ b → a ++ c :: x = b ++ c :: y → a = b ∧ x = y
  | [], [], _, _, _, _, h => ⟨rfl, (List.cons.inj h).2⟩
  | [], d :: b, _, _, _, hb, h => absurd ((List.cons.inj h).1 ▸ List.mem_cons_self) hb
  | d :: a, [], _, _, ha, _, h => absurd ((List.cons.inj h).1 ▸ List.mem_cons_self) ha
  | d :: a, d' :: b, _, _, ha, hb, h => by
    obtain ⟨h1, h2⟩ := List.cons.inj h
    obtain ⟨h3, h4⟩ := split_at (fun m => ha (List.mem_cons_of_mem _ m)) (fun m => hb (List.mem_cons_of_mem _ m)) h2
    exact ⟨by rw [h1, h3], h4⟩

/-- C85: a `checked_result` is printed as its flag and its contents: for a value (of a type that is not `unsigned char`) the digit 0 and
the numeral; for an error the digit 1, the text of the code and the message. -/
theorem C85_result (R : ITy) (msg : List Char) :
    (∀ v, (R.lg ≠ 0 ∨ R.signed = true) → crText R msg (.ok v) = .ret ('0' :: printInt v)) ∧
    ∀ e, ∃ m, message (makeErrorCode e) = .ret m ∧ crText R msg (.err e) = .ret ('1' :: (m.toList ++ ':' :: msg)) := by
  constructor
  · intro v h
    show Out.ret _ = _
    rw [if_neg]
    rintro ⟨h1, h2⟩
    rcases h with h | h
    · exact h h1
    · rw [h] at h2; cases h2
  · intro e
    obtain ⟨m, hm, _⟩ := C42_messages e
    exact ⟨m, hm, by simp only [crText, hm]; rfl⟩

/-- C85: the text tells the contents: results with the same text are the same value, or the same error with the same message. -/
theorem C85_result_injective (R : ITy) (msg msg' : List Char) (c c' : CR) (hc : ∀ v, c = .ok v → R.In v) (hc' : ∀ v, c' = .ok v → R.In v)
    (h : crText R msg c = crText R msg' c') : c = c' ∧ ((∃ e, c = .err e) → msg = msg') := by
  cases c with
  | ok v =>
    cases c' with
    | ok v' =>
      refine ⟨?_, fun ⟨e, he⟩ => by cases he⟩
      have h := (List.cons.inj (Out.ret.inj h)).2
      have hv := hc v rfl
      have hv' := hc' v' rfl
      by_cases hu : R.lg = 0 ∧ R.signed = false
      · rw [if_pos hu, if_pos hu] at h
        have h1 := (List.cons.inj h).1
        obtain ⟨sg, lg⟩ := R
        obtain ⟨rfl, rfl⟩ := hu
        have b1 : 0 ≤ v ∧ v ≤ 255 := hv
        have b2 : 0 ≤ v' ∧ v' ≤ 255 := hv'
        have key : ∀ k : Fin 256, (Char.ofNat k).toNat = k := by decide +kernel
        have hk := congrArg Char.toNat h1
        rw [key ⟨v.toNat, by omega⟩, key ⟨v'.toNat, by omega⟩] at hk
        have hk : v.toNat = v'.toNat := hk
        congr 1
        omega
      · rw [if_neg hu, if_neg hu] at h
        rw [print_inj' h]
    | err e =>
      obtain ⟨m, _, he⟩ := (C85_result R msg').2 e
      rw [he] at h
      have := (List.cons.inj (Out.ret.inj h)).1
      exact absurd this (by decide)
  | err e =>
    obtain ⟨m, hm, he⟩ := (C85_result R msg).2 e
    rw [he] at h
    cases c' with
    | ok v' =>
      have := (List.cons.inj (Out.ret.inj h)).1
      exact absurd this (by decide)
    | err e' =>
      obtain ⟨m', hm', he'⟩ := (C85_result R msg').2 e'
      rw [he'] at h
      have nc : ∀ (e : Err) m, message (makeErrorCode e) = .ret m → ':' ∉ m.toList := by
        intro e m h
        cases e <;> cases h <;> decide
      obtain ⟨h1, h2⟩ := split_at (nc e m hm) (nc e' m' hm') (List.cons.inj (Out.ret.inj h)).2
      have : m = m' := String.toList_injective h1
      subst this
      obtain ⟨_, hm1, _, hu⟩ := C42_messages e
      rw [hm] at hm1
      cases hm1
      exact ⟨by rw [hu e' hm'], fun _ => h2⟩

/-- C85: the text of an interval tells its ends. -/
theorem C85_interval (l u l' u' : Int) (h : itvText l u = itvText l' u') : l = l' ∧ u = u' := by
  have h := (List.cons.inj h).2
  obtain ⟨h1, h2⟩ := print_inj (by simp; decide) (by simp; decide) h
  obtain ⟨h3, _⟩ := print_inj (by simp; decide) (by simp; decide) (List.cons.inj h2).2
  exact ⟨h1, h3⟩

section
variable [Arch]

/-- C85: the text of a value with the range of its type is the text of the range and the numeral, and tells the range and the value. -/
theorem C85_range (T U : Opd) (hT : T.Wf) (hU : U.Wf) (t u : Int) (ht : T.Has t) (hu : U.Has u) :
    rangeText T t = itvText T.lo T.hi ++ printInt t ∧ (rangeText T t = rangeText U u → T.lo = U.lo ∧ T.hi = U.hi ∧ t = u) := by
  have key : ∀ T : Opd, T.Wf → ∀ t, T.Has t → rangeText T t = itvText T.lo T.hi ++ printInt t := by
    intro T hT t ht
    obtain ⟨h1, h2⟩ : T.Has T.lo ∧ T.Has T.hi := ⟨⟨le_refl _, ht.1.trans ht.2⟩, ⟨ht.1.trans ht.2, le_refl _⟩⟩
    simp only [rangeText, itvText, C51_output T hT _ h1, C51_output T hT _ h2, C51_output T hT _ ht, List.cons_append, List.append_assoc,
      List.nil_append]
  refine ⟨key T hT t ht, fun h => ?_⟩
  rw [key T hT t ht, key U hU u hu] at h
  simp only [itvText, List.cons_append, List.append_assoc] at h
  have h := (List.cons.inj h).2
  obtain ⟨h1, h2⟩ := print_inj (by simp; decide) (by simp; decide) h
  obtain ⟨h3, h4⟩ := print_inj (by simp; decide) (by simp; decide) (List.cons.inj h2).2
  exact ⟨h1, h3, print_inj' (List.cons.inj h4).2⟩

/-- C85: `safe_format` tells the name of the base type (a name without `>`), the range and the value. -/
theorem C85_format (n n' : List Char) (hn : '>' ∉ n) (hn' : '>' ∉ n') (T U : Opd) (hT : T.Wf) (hU : U.Wf) (t u : Int) (ht : T.Has t)
    (hu : U.Has u) (h : safeFormat n T t = safeFormat n' U u) : n = n' ∧ T.lo = U.lo ∧ T.hi = U.hi ∧ t = u := by
  obtain ⟨h0, h⟩ := split_at hn hn' (List.cons.inj h).2
  have a : T.Has T.lo ∧ T.Has T.hi := ⟨⟨le_refl _, ht.1.trans ht.2⟩, ⟨ht.1.trans ht.2, le_refl _⟩⟩
  have b : U.Has U.lo ∧ U.Has U.hi := ⟨⟨le_refl _, hu.1.trans hu.2⟩, ⟨hu.1.trans hu.2, le_refl _⟩⟩
  simp only [C51_output T hT _ a.1, C51_output T hT _ a.2, C51_output T hT _ ht, C51_output U hU _ b.1, C51_output U hU _ b.2,
    C51_output U hU _ hu] at h
  obtain ⟨h1, h2⟩ := print_inj (by simp; decide) (by simp; decide) (List.cons.inj h).2
  obtain ⟨h3, h4⟩ := print_inj (by simp; decide) (by simp; decide) (List.cons.inj h2).2
  exact ⟨h0, h1, h3, print_inj' (List.cons.inj (List.cons.inj (List.cons.inj (List.cons.inj h4).2).2).2).2⟩

/-! ### `result_display` -/

/-- the number that a hexadecimal numeral writes -/
def hexVal (l : List Char) : Nat := l.foldl (fun n c => 16 * n + (if c.toNat < 58 then c.toNat - 48 else c.toNat - 87)) 0

omit [Arch] in
private theorem hexDigit_char {n : Nat} (h : n < 16) : (if (hexDigit n).toNat < 58 then (hexDigit n).toNat - 48 else (hexDigit n).toNat - 87) = n ∧
    hexDigit n ≠ ',' ∧ hexDigit n ≠ ']' ∧ hexDigit n ≠ '(' := by
  have : ∀ n : Fin 16, (if (hexDigit n).toNat < 58 then (hexDigit n).toNat - 48 else (hexDigit n).toNat - 87) = n.val ∧
    hexDigit n ≠ ',' ∧ hexDigit n ≠ ']' ∧ hexDigit n ≠ '(' := by decide
  exact this ⟨n, h⟩

omit [Arch] in
/-- C85: hexadecimal numerals write the number, and have no separators. -/
private theorem hexDigits_spec (f n : Nat) (h : n < f) :
    hexVal (hexDigits f n) = n ∧ ∀ c ∈ hexDigits f n, c ≠ ',' ∧ c ≠ ']' ∧ c ≠ '(' := by
  induction f generalizing n with
  | zero => omega
  | succ f ih =>
    unfold hexDigits
    split
    · rename_i h1
      obtain ⟨d1, d2⟩ := hexDigit_char h1
      refine ⟨?_, ?_⟩
      · simpa [hexVal] using d1
      · simpa using d2
    · rename_i h1
      obtain ⟨i1, i2⟩ := ih (n / 16) (by omega)
      obtain ⟨d1, d2⟩ := hexDigit_char (Nat.mod_lt n (by omega : 16 > 0))
      refine ⟨?_, ?_⟩
      · have : hexVal (hexDigits f (n / 16) ++ [hexDigit (n % 16)]) = 16 * hexVal (hexDigits f (n / 16)) +
            (if (hexDigit (n % 16)).toNat < 58 then (hexDigit (n % 16)).toNat - 48 else (hexDigit (n % 16)).toNat - 87) := by
          simp [hexVal, List.foldl_append]
        rw [this, i1, d1]; omega
      · intro c hc
        rcases List.mem_append.1 hc with hc | hc
        · exact i2 c hc
        · rw [List.mem_singleton] at hc; rw [hc]; exact d2

/-- what is printed of a number in hexadecimal: the number, or for negative ones the number plus the power of two of its type -/
private theorem outputHex_eq (T : Opd) (hT : T.Wf) (t : Int) (ht : T.Has t) : (uac tInt T.base).In t ∧
    outputHex T t = printHex (uac tInt T.base) t := by
  have e : conv (uac tInt T.base) (if isCharTy T.base then conv tInt t else t) = t := print_inj' (C51_output T hT t ht)
  constructor
  · have := conv_in (uac tInt T.base) (if isCharTy T.base then conv tInt t else t)
    rwa [e] at this
  · unfold outputHex
    rw [e]

omit [Arch] in
private theorem printHex_inj {R R' : ITy} {a b : Int} (h : printHex R a = printHex R' b) : a % 2 ^ R.bits = b % 2 ^ R'.bits := by
  have k := congrArg hexVal h
  unfold printHex at k
  dsimp only at k
  rw [(hexDigits_spec _ _ (by omega)).1, (hexDigits_spec _ _ (by omega)).1] at k
  have e : ∀ (R : ITy) (x : Int), conv ⟨false, R.lg⟩ x = x % 2 ^ R.bits := fun R x => rfl
  rw [e, e] at k
  have h1 : 0 ≤ a % 2 ^ R.bits := Int.emod_nonneg _ (by positivity)
  have h2 : 0 ≤ b % 2 ^ R'.bits := Int.emod_nonneg _ (by positivity)
  omega

omit [Arch] in
private theorem printHex_sep (R : ITy) (v : Int) : ',' ∉ printHex R v ∧ ']' ∉ printHex R v ∧ '(' ∉ printHex R v := by
  have := (hexDigits_spec _ (conv ⟨false, R.lg⟩ v).toNat (Nat.lt_succ_self _)).2
  exact ⟨fun m => (this _ m).1 rfl, fun m => (this _ m).2.1 rfl, fun m => (this _ m).2.2 rfl⟩

omit [Arch] in
private theorem mod_cases {R : ITy} {x y : Int} (h : R.In x) (hy : R.In y) : (0 ≤ x ∧ x % 2 ^ R.bits = x) ∨
    (x < 0 ∧ -2 ^ (R.bits - 1) ≤ x ∧ y < 2 ^ (R.bits - 1) ∧ x % 2 ^ R.bits = x + 2 * 2 ^ (R.bits - 1)) := by
  have hb : 1 ≤ R.bits := by
    have : 1 ≤ 2 ^ R.lg := Nat.one_le_two_pow
    unfold ITy.bits; omega
  have hM : (2 : Int) ^ R.bits = 2 * 2 ^ (R.bits - 1) := by
    conv_lhs => rw [show R.bits = (R.bits - 1) + 1 by omega]
    rw [pow_succ]; ring
  have hpos : (0 : Int) < 2 ^ (R.bits - 1) := by positivity
  obtain ⟨h1, h2⟩ := h
  have h3 := hy.2
  unfold ITy.min ITy.max ITy.digits at *
  rcases hs : R.signed with _ | _
  · simp only [hs, Bool.false_eq_true, if_false] at h1 h2 h3
    exact Or.inl ⟨h1, Int.emod_eq_of_lt h1 (by omega)⟩
  · simp only [hs, if_true] at h1 h2 h3
    rcases lt_or_ge x 0 with h0 | h0
    · refine Or.inr ⟨h0, h1, by omega, ?_⟩
      rw [← hM, ← Int.add_emod_right x (2 ^ R.bits), Int.emod_eq_of_lt (by omega) (by omega)]
    · exact Or.inl ⟨h0, Int.emod_eq_of_lt h0 (by omega)⟩

/-- C85: `result_display` tells the range of the type and the value, although the ends are printed as numbers of an unsigned type. -/
theorem C85_display (T U : Opd) (hT : T.Wf) (hU : U.Wf) (t u : Int) (ht : T.Has t) (hu : U.Has u)
    (h : resultDisplay T t = resultDisplay U u) : T.lo = U.lo ∧ T.hi = U.hi ∧ t = u := by
  have a : T.Has T.lo ∧ T.Has T.hi := ⟨⟨le_refl _, ht.1.trans ht.2⟩, ⟨ht.1.trans ht.2, le_refl _⟩⟩
  have b : U.Has U.lo ∧ U.Has U.hi := ⟨⟨le_refl _, hu.1.trans hu.2⟩, ⟨hu.1.trans hu.2, le_refl _⟩⟩
  obtain ⟨p1, q1⟩ := outputHex_eq T hT _ a.1
  obtain ⟨p2, q2⟩ := outputHex_eq T hT _ a.2
  obtain ⟨_, q3⟩ := outputHex_eq T hT _ ht
  obtain ⟨p1', q1'⟩ := outputHex_eq U hU _ b.1
  obtain ⟨p2', q2'⟩ := outputHex_eq U hU _ b.2
  obtain ⟨_, q3'⟩ := outputHex_eq U hU _ hu
  unfold resultDisplay at h
  rw [q1, q2, q3, q1', q2', q3', C51_output T hT _ ht, C51_output U hU _ hu] at h
  obtain ⟨h1, h⟩ := split_at (printHex_sep _ _).1 (printHex_sep _ _).1 (List.cons.inj h).2
  obtain ⟨h2, h⟩ := split_at (printHex_sep _ _).2.1 (printHex_sep _ _).2.1 h
  obtain ⟨_, h⟩ := split_at (printHex_sep _ _).2.2 (printHex_sep _ _).2.2 h
  obtain ⟨rfl, _⟩ := print_inj (by simp; decide) (by simp; decide) h
  have h1 := printHex_inj h1
  have h2 := printHex_inj h2
  clear h q1 q2 q3 q1' q2' q3' hT hU
  have hl1 := ht.1; have hl2 := ht.2; have hl3 := hu.1; have hl4 := hu.2
  generalize uac tInt T.base = R at *
  generalize uac tInt U.base = R' at *
  have c1 := mod_cases p1 p2
  have c2 := mod_cases p2 p2
  have c3 := mod_cases p1' p2'
  have c4 := mod_cases p2' p2'
  rw [h1] at c1
  rw [h2] at c2
  have hw : (R.bits - 1 = R'.bits - 1) ∨ (2 * 2 ^ (R.bits - 1) : Int) ≤ 2 ^ (R'.bits - 1) ∨ (2 * 2 ^ (R'.bits - 1) : Int) ≤ 2 ^ (R.bits - 1) := by
    have key : ∀ m n : Nat, m < n → (2 * 2 ^ m : Int) ≤ 2 ^ n := fun m n h => by
      have : (2 : Int) ^ (m + 1) ≤ 2 ^ n := pow_le_pow_right₀ (by norm_num) h
      rw [pow_succ] at this; omega
    rcases lt_trichotomy (R.bits - 1) (R'.bits - 1) with g | g | g
    · exact Or.inr (Or.inl (key _ _ g))
    · exact Or.inl g
    · exact Or.inr (Or.inr (key _ _ g))
  have hw : ((2 : Int) ^ (R.bits - 1) = 2 ^ (R'.bits - 1)) ∨ (2 * 2 ^ (R.bits - 1) : Int) ≤ 2 ^ (R'.bits - 1) ∨
      (2 * 2 ^ (R'.bits - 1) : Int) ≤ 2 ^ (R.bits - 1) := hw.imp (fun g => by rw [g]) id
  generalize (2 : Int) ^ (R.bits - 1) = H at *
  generalize (2 : Int) ^ (R'.bits - 1) = H' at *
  refine ⟨?_, ?_, rfl⟩
  · rcases c1 with c1 | c1 <;> rcases c3 with c3 | c3 <;> omega
  · rcases c1 with c1 | c1 <;> rcases c3 with c3 | c3 <;> rcases c2 with c2 | c2 <;> rcases c4 with c4 | c4 <;> omega

end

/-- The flag and the value are not separated: a result with the value 1 is printed as "01"; of "0-3", the text of the value -3, a reader of
numbers takes 0 and leaves "-3"; a result whose value is not negative is read back. -/
theorem C85_flag_refuted :
    crText i32 [] (.ok 1) = .ret ['0', '1'] ∧ crText i32 [] (.ok (-3)) = .ret ['0', '-', '3'] ∧
    iread ['0', '-', '3'] = some (0, ['-', '3']) := by decide +kernel

/-- example20.cpp, for all `x` and `y`: the difference of unsigned numbers is printed after the flag "0", if it is not negative; otherwise it is a
negative overflow, also when it is added to itself -/
theorem C85_example20 (x y : Int) (hx : u32.In x) (hy : u32.In y) (msg : List Char) : letI := lp64
    (y ≤ x → (crSub u32 (.ok x) (.ok y) >>= crText u32 msg) = .ret ('0' :: printInt (x - y))) ∧
    (x < y → (crSub u32 (.ok x) (.ok y) >>= crText u32 msg) = .ret ("1negative overflow error:".toList ++ msg) ∧
      (do let z ← crSub u32 (.ok x) (.ok y); let w ← crAdd u32 z z; crText u32 msg w) = .ret ("1negative overflow error:".toList ++ msg)) := by
  let _ := lp64
  have a : 0 ≤ x ∧ x ≤ 4294967295 := hx
  have b : 0 ≤ y ∧ y ≤ 4294967295 := hy
  have e : crSub u32 (.ok x) (.ok y) = .ret (exactOr 0 4294967295 (x - y)) := crSub_ok hx hy
  rw [e]
  unfold exactOr
  constructor
  · intro h
    rw [if_neg (by omega), if_neg (by omega)]
    rfl
  · intro h
    rw [if_neg (by omega), if_pos (by omega)]
    exact ⟨rfl, rfl⟩

example : letI := lp64
    (crSub u32 (.ok 4) (.ok 3) >>= crText u32 []) = .ret "01".toList ∧
    (crSub u32 (.ok 3) (.ok 4) >>= crText u32 "m".toList) = .ret "1negative overflow error:m".toList ∧
    (do let z ← crSub u32 (.ok 3) (.ok 4); let y ← crAdd u32 z z; crText u32 [] y) = .ret "1negative overflow error:".toList := by
  decide +kernel

section
attribute [local instance] lp64

-- the range of -5 to 3 with the value -1: negative numbers are printed as unsigned ones, the value also in decimal
example : resultDisplay (Opd.range i8 (-5) 3) (-1) = "[fffffffb,3]ffffffff(-1)".toList ∧ (Opd.range i8 (-5) 3).Wf ∧
    resultDisplay (Opd.ofSafe u32) 255 = "[0,ffffffff]ff(255)".toList := by decide +kernel
example : crText i8 [] (.ok 65) = .ret ['0', '6', '5'] ∧ crText u8 [] (.ok 65) = .ret ['0', 'A'] := by decide +kernel
example : itvText (-5) 10 = "[-5,10]".toList ∧ rangeText (Opd.range i8 (-5) 10) 7 = "[-5,10]7".toList := by decide +kernel
example : safeFormat "signed char".toList (Opd.range i8 (-24) 82) 77 = "<signed char>[-24,82] = 77".toList := by decide +kernel
example : (Opd.range i8 (-24) 82).Wf ∧ (Opd.range i8 (-24) 82).Has 77 := by decide +kernel
end
end Verif.Props
