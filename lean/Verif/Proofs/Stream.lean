import Verif.Stream
import Verif.Proofs.Promotion

/-! Helper lemmas for stream input and output. -/

namespace Verif

theorem digit_char {n : Nat} (h : n < 10) : isDig (Char.ofNat (48 + n)) = true ∧ (Char.ofNat (48 + n)).toNat = 48 + n := by
  have : ∀ n : Fin 10, isDig (Char.ofNat (48 + n)) = true ∧ (Char.ofNat (48 + n)).toNat = 48 + n := by decide
  exact this ⟨n, h⟩

theorem digitsVal_append (a : List Char) (c : Char) : digitsVal (a ++ [c]) = 10 * digitsVal a + (c.toNat - 48) := by
  simp [digitsVal, List.foldl_append]

theorem decDigits_spec (f n : Nat) (h : n < f) :
    digitsVal (decDigits f n) = n ∧ (∀ c ∈ decDigits f n, isDig c = true) ∧ decDigits f n ≠ [] := by
  induction f generalizing n with
  | zero => omega
  | succ f ih =>
    unfold decDigits
    split
    · rename_i h1
      obtain ⟨d1, d2⟩ := digit_char h1
      refine ⟨?_, ?_, by simp⟩
      · simp [digitsVal, d2]
      · simpa using d1
    · rename_i h1
      obtain ⟨i1, i2, i3⟩ := ih (n / 10) (by omega)
      obtain ⟨d1, d2⟩ := digit_char (Nat.mod_lt n (by omega : 10 > 0))
      refine ⟨?_, ?_, by simp⟩
      · rw [digitsVal_append, i1, d2]; omega
      · intro c hc
        rcases List.mem_append.1 hc with hc | hc
        · exact i2 c hc
        · rw [List.mem_singleton] at hc; rw [hc]; exact d1

theorem takeWhile_digits {ds rest : List Char} (h : ∀ c ∈ ds, isDig c = true) (hr : ∀ c, rest.head? = some c → isDig c = false) :
    (ds ++ rest).takeWhile isDig = ds ∧ (ds ++ rest).dropWhile isDig = rest := by
  induction ds with
  | nil =>
    cases rest with
    | nil => simp
    | cons c r => have := hr c rfl; simp [this]
  | cons d ds ih =>
    obtain ⟨h1, h2⟩ := ih (fun c hc => h c (List.mem_cons_of_mem _ hc))
    have := h d (List.mem_cons_self ..)
    simp [this, h1, h2]

theorem dropWhile_ws {ws r : List Char} (h : ∀ c ∈ ws, isWs c = true) (hr : ∀ c, r.head? = some c → isWs c = false) :
    (ws ++ r).dropWhile isWs = r := by
  induction ws with
  | nil =>
    cases r with
    | nil => simp
    | cons c r => have := hr c rfl; simp [this]
  | cons d ds ih =>
    have := h d (List.mem_cons_self ..)
    simp [this, ih (fun c hc => h c (List.mem_cons_of_mem _ hc))]

theorem dropWhile_split {q : Char → Bool} (b : List Char) :
    ∃ a, b = a ++ b.dropWhile q ∧ (∀ c ∈ a, q c = true) ∧ (∀ c, (b.dropWhile q).head? = some c → q c = false) := by
  induction b with
  | nil => exact ⟨[], by simp⟩
  | cons c b ih =>
    by_cases h : q c = true
    · obtain ⟨a, h1, h2, h3⟩ := ih
      refine ⟨c :: a, ?_, ?_, ?_⟩
      · simp [h]; exact h1
      · intro x hx; rcases List.mem_cons.1 hx with rfl | hx
        · exact h
        · exact h2 x hx
      · simpa [h] using h3
    · have h : q c = false := by simpa using h
      exact ⟨[], by simp [h], by simp, by intro x; simp [h]; rintro rfl; exact h⟩

theorem takeWhile_eq {q : Char → Bool} (b : List Char) : b = b.takeWhile q ++ b.dropWhile q ∧
    (∀ c ∈ b.takeWhile q, q c = true) ∧ (∀ c, (b.dropWhile q).head? = some c → q c = false) := by
  induction b with
  | nil => simp
  | cons c b ih =>
    by_cases h : q c = true
    · obtain ⟨h1, h2, h3⟩ := ih
      refine ⟨?_, ?_, ?_⟩
      · simp [h]
      · intro x hx
        simp only [List.takeWhile_cons, h, if_true] at hx
        rcases List.mem_cons.1 hx with rfl | hx
        · exact h
        · exact h2 x hx
      · simpa [h] using h3
    · have h : q c = false := by simpa using h
      refine ⟨by simp [h], by simp [h], by intro x; simp [h]; rintro rfl; exact h⟩

/-- a digit is neither white space nor a sign -/
theorem dig_not {c : Char} (h : isDig c = true) : isWs c = false ∧ c ≠ '-' ∧ c ≠ '+' := by
  refine ⟨?_, ?_, ?_⟩
  · unfold isDig at h; unfold isWs
    simp only [Bool.and_eq_true, decide_eq_true_eq] at h
    have : c ≠ ' ' := by rintro rfl; revert h; decide
    simp [this]; omega
  · rintro rfl; revert h; decide
  · rintro rfl; revert h; decide

/-- the three forms of a numeral -/
theorem scan_minus (ds rest : List Char) (h : ∀ c ∈ ds, isDig c = true) (hr : ∀ c, rest.head? = some c → isDig c = false) :
    scan ('-' :: (ds ++ rest)) = (true, ds, rest) := by
  obtain ⟨h1, h2⟩ := takeWhile_digits h hr
  unfold scan; simp [h1, h2]

theorem scan_plus (ds rest : List Char) (h : ∀ c ∈ ds, isDig c = true) (hr : ∀ c, rest.head? = some c → isDig c = false) :
    scan ('+' :: (ds ++ rest)) = (false, ds, rest) := by
  obtain ⟨h1, h2⟩ := takeWhile_digits h hr
  unfold scan; simp [h1, h2]

theorem scan_plain (ds rest : List Char) (hd : ds ≠ []) (h : ∀ c ∈ ds, isDig c = true)
    (hr : ∀ c, rest.head? = some c → isDig c = false) : scan (ds ++ rest) = (false, ds, rest) := by
  obtain ⟨h1, h2⟩ := takeWhile_digits h hr
  unfold scan
  split
  · rename_i r heq
    cases ds with
    | nil => exact absurd rfl hd
    | cons d ds =>
      have := (dig_not (h d (List.mem_cons_self ..))).2.1
      simp at heq; exact absurd heq.1 this
  · rename_i r heq
    cases ds with
    | nil => exact absurd rfl hd
    | cons d ds =>
      have := (dig_not (h d (List.mem_cons_self ..))).2.2
      simp at heq; exact absurd heq.1 this
  · simp [h1, h2]

/-- conversely what `scan` finds is there -/
theorem scan_found (b : List Char) : (∀ c ∈ (scan b).2.1, isDig c = true) ∧
    (∀ c, (scan b).2.2.head? = some c → isDig c = false) ∧
    (((scan b).1 = true ∧ b = '-' :: ((scan b).2.1 ++ (scan b).2.2)) ∨
     ((scan b).1 = false ∧ (b = '+' :: ((scan b).2.1 ++ (scan b).2.2) ∨ b = (scan b).2.1 ++ (scan b).2.2))) := by
  unfold scan
  split
  · rename_i r
    obtain ⟨h1, h2, h3⟩ := takeWhile_eq (q := isDig) r
    exact ⟨h2, h3, Or.inl ⟨rfl, by simp⟩⟩
  · rename_i r
    obtain ⟨h1, h2, h3⟩ := takeWhile_eq (q := isDig) r
    exact ⟨h2, h3, Or.inr ⟨rfl, Or.inl (by simp)⟩⟩
  · obtain ⟨h1, h2, h3⟩ := takeWhile_eq (q := isDig) b
    exact ⟨h2, h3, Or.inr ⟨rfl, Or.inr h1⟩⟩

end Verif
