import Verif.Proofs.Checked

/-! Stored types, round_out, minmax. -/

namespace Verif

@[simp] theorem Out.static_ret {α : Type} (a : α) : Out.static (Out.ret a) = Out.ret a := rfl

theorem leastLgFrom_spec {n : Int} {j0 : Nat} (hj : n ≤ ((8 * 2 ^ j0 : Nat) : Int)) :
    ∀ fuel k, k ≤ j0 → j0 < k + fuel →
      ∃ j, leastLgFrom n fuel k = some j ∧ k ≤ j ∧ j ≤ j0 ∧ n ≤ ((8 * 2 ^ j : Nat) : Int) ∧
        ∀ i, k ≤ i → n ≤ ((8 * 2 ^ i : Nat) : Int) → j ≤ i := by
  intro fuel
  induction fuel with
  | zero => intro k h1 h2; omega
  | succ f ih =>
    intro k h1 h2
    unfold leastLgFrom
    by_cases hc : n ≤ ((8 * 2 ^ k : Nat) : Int)
    · rw [if_pos hc]
      exact ⟨k, rfl, Nat.le_refl _, h1, hc, fun i hi _ => hi⟩
    · rw [if_neg hc]
      have hne : k ≠ j0 := by rintro rfl; exact hc hj
      obtain ⟨j, e, h3, h4, h5, h6⟩ := ih (k + 1) (by omega) (by omega)
      refine ⟨j, e, by omega, h4, h5, fun i hi hn => ?_⟩
      rcases Nat.lt_or_ge k i with h | h
      · exact h6 i h hn
      · have : i = k := by omega
        subst this; exact absurd hn hc

section
variable [Arch]

theorem leastType_spec {s : Bool} {n : Int} (h : n ≤ ((8 * 2 ^ Arch.maxLg : Nat) : Int)) :
    ∃ S : ITy, leastType s n = .ret S ∧ S.signed = s ∧ S.Ok ∧ n ≤ (S.bits : Int) ∧
      ∀ S' : ITy, n ≤ (S'.bits : Int) → S.lg ≤ S'.lg := by
  obtain ⟨j, e, _, h4, h5, h6⟩ := leastLgFrom_spec h (Arch.maxLg + 1) 0 (by omega) (by omega)
  refine ⟨⟨s, j⟩, ?_, rfl, h4, h5, fun S' hS' => h6 S'.lg (by omega) hS'⟩
  unfold leastType; rw [e]

theorem tIntMax_ok : tIntMax.Ok := Nat.le_refl _
theorem tUIntMax_ok : tUIntMax.Ok := Nat.le_refl _

omit [Arch] in
theorem sbits_le_digits {S : ITy} {t : Int} (h : S.In t) : sbits t ≤ S.digits := by
  have hd7 := S.digits_ge
  have h1 := h.1
  have h2 := h.2
  unfold ITy.max at h2
  by_cases h0 : t < 0
  · rw [sbits_neg h0]
    refine sbits_le_of_lt (by omega) (by omega) ?_
    rcases hsg : S.signed with _ | _
    · exact absurd (h.nonneg hsg) (by omega)
    · rw [ITy.min_signed hsg] at h1; omega
  · exact sbits_le_of_lt (by omega) (by omega) (by omega)

omit [Arch] in
theorem in_of_sbits {S : ITy} {t : Int} (hs : S.signed = true ∨ 0 ≤ t) (h : sbits t ≤ S.digits) : S.In t := by
  have h2 := two_pow_le h
  by_cases h0 : t < 0
  · have hs' : S.signed = true := by rcases hs with h | h; exact h; omega
    have := neg_two_pow_sbits_le h0
    have hp := two_pow_pos S.digits
    exact ⟨by rw [ITy.min_signed hs']; omega, by unfold ITy.max; omega⟩
  · have := lt_two_pow_sbits (t := t) (by omega)
    have := S.min_nonpos
    exact ⟨by omega, by unfold ITy.max; omega⟩

theorem signedStoredType_spec {mn mx : Int} (h1 : tIntMax.In mn) (h2 : tIntMax.In mx) :
    ∃ S : ITy, signedStoredType mn mx = .ret S ∧ S.signed = true ∧ S.Ok ∧ S.In mn ∧ S.In mx ∧
      ∀ S' : ITy, S'.signed = true → S'.In mn → S'.In mx → S.lg ≤ S'.lg := by
  obtain ⟨e1, l1⟩ := significantBits_eq tIntMax_ok h1
  obtain ⟨e2, l2⟩ := significantBits_eq tIntMax_ok h2
  have hb := ok_bits tIntMax_ok
  have hd := ITy.digits_signed (T := tIntMax) rfl
  have hmax : umax (sbits mn : Nat) (sbits mx : Nat) + 1 ≤ (tIntMax.bits : Int) := by
    unfold umax; split <;> omega
  have hmax0 : 0 ≤ umax (sbits mn : Nat) (sbits mx : Nat) + 1 := by unfold umax; split <;> omega
  obtain ⟨S, e, hs, hok, hn, hmin⟩ := leastType_spec (s := true) hmax
  have hdS := ITy.digits_signed hs
  refine ⟨S, ?_, hs, hok, ?_, ?_, ?_⟩
  · unfold signedStoredType
    rw [e1, e2, Out.ret_bind, Out.ret_bind, conv_of_in (tUInt_in hmax0 (by omega)), e]; rfl
  · apply in_of_sbits (Or.inl hs); unfold umax at hn; split at hn <;> omega
  · apply in_of_sbits (Or.inl hs); unfold umax at hn; split at hn <;> omega
  · intro S' hs' a b
    apply hmin
    have := sbits_le_digits a; have := sbits_le_digits b
    have := ITy.digits_signed hs'
    unfold umax; split <;> omega

theorem unsignedStoredType_spec {mn mx : Int} (h2 : tUIntMax.In mx) :
    ∃ S : ITy, unsignedStoredType mn mx = .ret S ∧ S.signed = false ∧ S.Ok ∧ S.In mx ∧
      ∀ S' : ITy, S'.signed = false → S'.In mx → S.lg ≤ S'.lg := by
  obtain ⟨e2, l2⟩ := significantBits_eq tUIntMax_ok h2
  have hd := ITy.digits_unsigned (T := tUIntMax) rfl
  obtain ⟨S, e, hs, hok, hn, hmin⟩ := leastType_spec (s := false) (n := (sbits mx : Nat))
    (show ((sbits mx : Nat) : Int) ≤ (tUIntMax.bits : Nat) by omega)
  have hdS := ITy.digits_unsigned hs
  refine ⟨S, ?_, hs, hok, ?_, ?_⟩
  · unfold unsignedStoredType
    rw [e2, Out.ret_bind, e]; rfl
  · exact in_of_sbits (Or.inr (h2.nonneg rfl)) (by omega)
  · intro S' hs' b
    apply hmin
    have := sbits_le_digits b
    have := ITy.digits_unsigned hs'
    omega

omit [Arch] in
theorem u8_in {x : Int} (h0 : 0 ≤ x) (h : x ≤ 255) : u8.In x := by
  refine ⟨by rw [ITy.min_unsigned rfl]; exact h0, ?_⟩
  have : u8.max = 255 := by decide
  omega

/-- `((T)1 << sb) - 1` in the promoted type -/
theorem ones_eq {T : ITy} {sb : Nat} (h1 : 1 ≤ sb) (hsb : sb < T.bits) (hb : sb ≤ 128)
    (h : T.signed = false ∨ T.lg < Arch.intLg ∨ sb < T.digits) :
    (do let a ← cShl T u8 1 (sb : Int); cSub (promote T) tInt a 1) = .ret (2 ^ sb - 1) := by
  have hp := two_pow_pos sb
  have h2 : (promote T).In (2 ^ sb) := by
    rcases h with h | h | h
    · apply in_promote
      have := two_pow_lt (show sb < T.digits by rw [ITy.digits_unsigned h]; exact hsb)
      exact ⟨by have := T.min_nonpos; omega, by unfold ITy.max; omega⟩
    · have hb2 := ITy.bits_lt (T := T) (U := promote T) (Nat.lt_of_lt_of_le h (promote_lg' T))
      have hb8 := T.bits_pos
      have hd : sb < (promote T).digits := by unfold ITy.digits; split <;> omega
      have := two_pow_lt hd
      exact ⟨by have := (promote T).min_nonpos; omega, by unfold ITy.max; omega⟩
    · apply in_promote
      have := two_pow_lt h
      exact ⟨by have := T.min_nonpos; omega, by unfold ITy.max; omega⟩
  have hpb := ITy.bits_le (promote_lg T)
  rw [cShl_eq (ITy.in_one _) (by decide) (promote_in_small (by omega) (by omega)) (by omega) (by omega)
    (by simpa using h2), Out.ret_bind]
  have hu : uac (promote T) tInt = promote T := by rw [uac_promote_left, uac_int_right]
  simp only [Int.toNat_natCast, Int.one_mul]
  rw [cSub_eq (by rw [hu]; exact h2) (by rw [hu]; exact ITy.in_one _)
    (by rw [hu]; exact in_of_between (ITy.in_zero _) h2 (by omega) (by omega))]

theorem roundOut_nonneg {T : ITy} (hT : T.Ok) {t : Int} (ht : T.In t) (h0 : 0 ≤ t)
    (h : T.signed = false ∨ T.lg < Arch.intLg ∨ sbits t < T.digits) :
    roundOut T t = .ret (2 ^ sbits t - 1) := by
  obtain ⟨e, l⟩ := significantBits_eq hT ht
  have hb := ok_bits hT
  have hdb := digits_le_bits T
  have hs1 := sbits_pos t
  have hp := two_pow_pos (sbits t)
  unfold roundOut
  rw [cGe_zero ht]
  simp only [h0, decide_true, if_true]
  rw [e, Out.ret_bind, conv_of_in (u8_in (by omega) (by omega))]
  by_cases hlt : ((sbits t : Nat) : Int) < T.bits
  · rw [if_pos hlt]
    have ho := ones_eq (T := T) hs1 (by omega) (by omega) h
    have hin : T.In (2 ^ sbits t - 1) := by
      have := two_pow_le l
      exact ⟨by have := T.min_nonpos; omega, by unfold ITy.max; omega⟩
    rw [← conv_of_in hin]
    generalize cShl T u8 1 ((sbits t : Nat) : Int) = o at ho
    cases o with
    | ret a =>
      simp only [Out.ret_bind] at ho ⊢
      rw [ho, Out.ret_bind, conv_of_in hin]
    | thrown e => simp at ho
    | fault f => simp at ho
  · rw [if_neg hlt]
    have hs : T.signed = false := by
      rcases hsg : T.signed with _ | _
      · rfl
      · have := ITy.digits_signed hsg; omega
    have := ITy.digits_unsigned hs
    unfold ITy.max
    rw [show T.digits = sbits t by omega]

theorem roundOut_neg {T : ITy} (hT : T.Ok) {t : Int} (ht : T.In t) (h0 : t < 0)
    (h : T.lg < Arch.intLg ∨ sbits t < T.digits) :
    roundOut T t = .ret (- 2 ^ sbits t) := by
  have hs : T.signed = true := by
    rcases hsg : T.signed with _ | _
    · exact absurd (ht.nonneg hsg) (by omega)
    · rfl
  have l := sbits_le_digits ht
  have e1 := ITy.min_eq T
  rw [hs, if_pos rfl] at e1
  have hin1 : T.In (-t - 1) := ⟨by have := ht.2; omega, by have := ht.1; omega⟩
  obtain ⟨e, _⟩ := significantBits_eq (promote_ok hT) (in_promote hin1)
  rw [← sbits_neg h0] at e
  have hb := ok_bits hT
  have hdb := ITy.digits_signed hs
  have hs1 := sbits_pos t
  have hp := two_pow_pos (sbits t)
  unfold roundOut
  rw [cGe_zero ht]
  simp only [show ¬ 0 ≤ t by omega, decide_false, if_false, Bool.false_eq_true]
  rw [cNot_signed hs ht, e, Out.ret_bind, conv_of_in (u8_in (by omega) (by omega)), if_pos (by omega)]
  have ho := ones_eq (T := T) hs1 (by omega) (by omega) (Or.inr h)
  have hle := two_pow_le l
  have hin : T.In (2 ^ sbits t - 1) :=
    ⟨by have := T.min_nonpos; omega, by unfold ITy.max; omega⟩
  have hin2 : T.In (- 2 ^ sbits t) :=
    ⟨by rw [ITy.min_signed hs]; omega, by have := T.max_ge; omega⟩
  generalize cShl T u8 1 ((sbits t : Nat) : Int) = o at ho
  cases o with
  | ret a =>
    simp only [Out.ret_bind] at ho ⊢
    rw [ho, Out.ret_bind, cNot_signed (promote_signed hs) (in_promote hin),
      show -(2 ^ sbits t - 1) - 1 = - (2 : Int) ^ sbits t by omega, conv_of_in hin2]
  | thrown e => simp at ho
  | fault f => simp at ho

end

/-! minmax -/

theorem minmax_fold {α : Type} (lt : α → α → Bool) (irr : ∀ a, lt a a = false)
    (tr : ∀ a b c, lt b a = false → lt c b = false → lt c a = false)
    (asym : ∀ a b, lt a b = true → lt b a = false) :
    ∀ (l : List α) (p : α × α) (seen : List α), p.1 ∈ seen → p.2 ∈ seen →
      (∀ x ∈ seen, lt x p.1 = false ∧ lt p.2 x = false) →
      let q := l.foldl (minmaxStep lt) p
      q.1 ∈ seen ++ l ∧ q.2 ∈ seen ++ l ∧ ∀ x ∈ seen ++ l, lt x q.1 = false ∧ lt q.2 x = false := by
  intro l
  induction l with
  | nil => intro p seen h1 h2 h3; simpa using ⟨h1, h2, h3⟩
  | cons i l ih =>
    intro p seen h1 h2 h3
    have key : (minmaxStep lt p i).1 ∈ seen ++ [i] ∧ (minmaxStep lt p i).2 ∈ seen ++ [i] ∧
        ∀ x ∈ seen ++ [i], lt x (minmaxStep lt p i).1 = false ∧ lt (minmaxStep lt p i).2 x = false := by
      unfold minmaxStep
      split
      · rename_i hlt
        refine ⟨by simp, by simp [h2], ?_⟩
        intro x hx
        rcases List.mem_append.mp hx with hx | hx
        · obtain ⟨a, b⟩ := h3 x hx
          exact ⟨tr _ _ _ (asym _ _ hlt) a, b⟩
        · simp at hx; subst hx
          exact ⟨irr _, tr _ _ _ (asym _ _ hlt) (h3 _ h1).2⟩
      · rename_i hlt
        split
        · rename_i hgt
          refine ⟨by simp [h1], by simp, ?_⟩
          intro x hx
          rcases List.mem_append.mp hx with hx | hx
          · obtain ⟨a, b⟩ := h3 x hx
            exact ⟨a, tr _ _ _ b (asym _ _ hgt)⟩
          · simp at hx; subst hx
            exact ⟨by simpa using hlt, irr _⟩
        · rename_i hgt
          refine ⟨by simp [h1], by simp [h2], ?_⟩
          intro x hx
          rcases List.mem_append.mp hx with hx | hx
          · exact h3 x hx
          · simp at hx; subst hx
            exact ⟨by simpa using hlt, by simpa using hgt⟩
    have := ih _ (seen ++ [i]) key.1 key.2.1 key.2.2
    simpa [List.append_assoc] using this

end Verif
