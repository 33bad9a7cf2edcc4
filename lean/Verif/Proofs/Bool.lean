import Verif.Proofs.SafeOps

/-!
Lemmas on the conversion to `bool`.
-/

namespace Verif
section
variable [Arch]

/-- the result of `checked::cast<bool>` -/
def boolCR (t : Int) : CR :=
  if t < 0 then .err .domain_error else if 1 < t then .err .positive_overflow_error else .ok t

omit [Arch] in
theorem u8_zero : u8.In 0 := by decide
omit [Arch] in
theorem u8_one : u8.In 1 := by decide

theorem cast_bool {T : ITy} {h : Handler} {t : Int} (ht : T.In t) :
    cast u8 0 1 T h t = if t < 0 then h .domain_error else if 1 < t then h .positive_overflow_error else .ret (.ok t) := by
  rw [cast_eq ht u8_zero u8_one]
  have hu : T.signed = false → 0 ≤ t := fun h => ht.nonneg h
  by_cases h1 : t < 0
  · have hs : T.signed = true := by by_contra h; have := hu (by simpa using h); omega
    rw [if_pos ⟨rfl, hs, h1⟩, if_pos h1]
  · rw [if_neg (by tauto), if_neg h1]
    by_cases h2 : 1 < t
    · rw [if_pos h2, if_neg h1]
    · rw [if_neg h2, if_neg h1]

theorem cast_bool_make {T : ITy} {t : Int} (ht : T.In t) : cast u8 0 1 T make t = .ret (boolCR t) := by
  rw [cast_bool ht]; unfold boolCR
  split_ifs <;> rfl

omit [Arch] in
private theorem bool_cases {t : Int} (h1 : ¬ t < 0) (h2 : ¬ 1 < t) : t = 0 ∨ t = 1 := by omega

theorem bool_excludes {l u : Int} (h : l ≤ u) :
    ((⟨.ok 0, .ok 1⟩ : Itv CR).excludes (crCmp u8) ⟨boolCR l, boolCR u⟩).toBool = decide (1 < l) := by
  change ((crLt u8 (boolCR u) (.ok 0)).or (crLt u8 (.ok 1) (boolCR l))).toBool = _
  rw [T3.or_toBool]
  have e1 : (crLt u8 (boolCR u) (.ok 0)).toBool = false := by
    unfold boolCR
    split_ifs with h1 h2
    · rfl
    · rfl
    · rcases bool_cases h1 h2 with rfl | rfl
      · rw [crLt_ok u8_zero u8_zero]; rfl
      · rw [crLt_ok u8_one u8_zero]; rfl
  have e2 : (crLt u8 (.ok 1) (boolCR l)).toBool = decide (1 < l) := by
    unfold boolCR
    split_ifs with h1 h2
    · rw [decide_eq_false (by omega)]; rfl
    · rw [decide_eq_true h2]; rfl
    · rcases bool_cases h1 h2 with rfl | rfl
      · rw [crLt_ok u8_one u8_zero]; rfl
      · rw [crLt_ok u8_one u8_one]; rfl
  rw [e1, e2, Bool.false_or]

theorem bool_includes {l u : Int} (h : l ≤ u) :
    ((⟨.ok 0, .ok 1⟩ : Itv CR).includes (crCmp u8) ⟨boolCR l, boolCR u⟩).toBool = decide (0 ≤ l ∧ u ≤ 1) := by
  change (((crLt u8 (.ok 1) (boolCR u)).not).and ((crLt u8 (boolCR l) (.ok 0)).not)).toBool = _
  rw [T3.and_toBool]
  have e1 : ((crLt u8 (.ok 1) (boolCR u)).not).toBool = decide (0 ≤ u ∧ u ≤ 1) := by
    unfold boolCR
    split_ifs with h1 h2
    · rw [decide_eq_false (by omega)]; rfl
    · rw [decide_eq_false (by omega)]; rfl
    · rcases bool_cases h1 h2 with rfl | rfl
      · rw [crLt_ok u8_one u8_zero]; rfl
      · rw [crLt_ok u8_one u8_one]; rfl
  rw [e1]
  by_cases g : 0 ≤ u ∧ u ≤ 1
  · rw [decide_eq_true g, Bool.true_and]
    unfold boolCR
    split_ifs with h1 h2
    · rw [decide_eq_false (by omega)]; rfl
    · omega
    · rcases bool_cases h1 h2 with rfl | rfl
      · rw [crLt_ok u8_zero u8_zero, decide_eq_true (by omega : (0:Int) ≤ 0 ∧ u ≤ 1)]; rfl
      · rw [crLt_ok u8_one u8_zero, decide_eq_true (by omega : (0:Int) ≤ 1 ∧ u ≤ 1)]; rfl
  · rw [decide_eq_false g, decide_eq_false (by omega), Bool.false_and]

/-- the conversion at run time -/
def boolRun (p : EP) (t : Int) : Out Bool :=
  match p.ae with
  | .trap => .fault .illFormed
  | .throw => if t < 0 then .thrown .domain_error else if 1 < t then .thrown .positive_overflow_error else .ret (t ≠ 0)
  | .ignore => if t < 0 ∨ 1 < t then .fault .ub else .ret (t ≠ 0)
  | .user f =>
    if t < 0 then (if f.contains .domain_error then .fault .ub else .thrown .domain_error)
    else if 1 < t then (if f.contains .positive_overflow_error then .fault .ub else .thrown .positive_overflow_error)
    else .ret (t ≠ 0)

/-- closed form of validation -/
theorem validateBool_eq {p : EP} {T : Opd} {t : Int} (hT : T.Wf) (ht : T.Has t) :
    validateBool p T t =
      if 1 < T.lo then .fault .illFormed
      else if 0 ≤ T.lo ∧ T.hi ≤ 1 then .ret (t ≠ 0)
      else boolRun p t := by
  unfold validateBool
  rw [cast_bool_make hT.2.1, cast_bool_make hT.2.2.1, cast_bool (hT.has_in ht), traps_cast]
  show (if ((⟨.ok 0, .ok 1⟩ : Itv CR).excludes (crCmp u8) ⟨boolCR T.lo, boolCR T.hi⟩).toBool = true then _ else
    if ((⟨.ok 0, .ok 1⟩ : Itv CR).includes (crCmp u8) ⟨boolCR T.lo, boolCR T.hi⟩).toBool = true then _ else _) = _
  rw [bool_excludes hT.2.2.2.1, bool_includes hT.2.2.2.1]
  simp only [decide_eq_true_eq]
  refine if_congr Iff.rfl rfl (if_congr Iff.rfl rfl ?_)
  unfold boolRun
  cases hp : p.ae
  case trap => simp
  case throw =>
    rw [if_neg (by decide), handler_throw hp rfl, handler_throw hp rfl]
    split_ifs <;> rfl
  case ignore =>
    rw [if_neg (by decide), handler_ignore hp rfl, handler_ignore hp rfl]
    by_cases h1 : t < 0
    · rw [if_pos h1]; dsimp only; rw [if_pos (Or.inl h1)]; rfl
    · by_cases h2 : 1 < t
      · rw [if_neg h1, if_pos h2]; dsimp only; rw [if_pos (Or.inr h2)]; rfl
      · rw [if_neg h1, if_neg h2]; dsimp only; rw [if_neg (by omega)]; rfl
  case user f =>
    rw [if_neg (by simp), handler_user hp rfl, handler_user hp rfl]
    dsimp only
    split_ifs <;> rfl

/-- the static assertion of the conversion to `bool` never fails -/
theorem toBool_assert (l u : Int) :
    ((⟨0, 1⟩ : Itv Int).excludes (intCmp u8) ⟨if l = 0 then 0 else 1, if u = 0 then 0 else 1⟩).toBool = false := by
  change ((T3.ofBool (cLt u8 u8 (if u = 0 then 0 else 1) 0)).or (T3.ofBool (cLt u8 u8 1 (if l = 0 then 0 else 1)))).toBool = _
  have a : ∀ x : Int, u8.In (if x = 0 then 0 else 1) := fun x => by split <;> decide
  rw [cLt_eq (in_uac_self (a u)) (in_uac_self u8_zero), cLt_eq (in_uac_self u8_one) (in_uac_self (a l)),
    decide_eq_false (by split <;> omega), decide_eq_false (by split <;> omega)]
  rfl

/-- closed form of the conversion of a safe value -/
theorem toBool_safe {p : EP} {T : Opd} {t : Int} (hT : T.Wf) (hk : T.kind = .safe) (ht : T.Has t) :
    toBool p T t = boolRun p t := by
  have wf : (Opd.ofBuiltin T.base).Wf :=
    ⟨hT.1, T.base.in_min, T.base.in_max, T.base.min_le_max, fun _ => ⟨rfl, rfl⟩, fun b hb => by cases hb⟩
  unfold toBool
  rw [hk]
  dsimp only
  rw [toBool_assert, if_neg (by decide), validateBool_eq wf (hT.has_in ht)]
  have h1 := T.base.min_nonpos
  have h2 : 1 < T.base.max := by
    have := T.base.max_ge; omega
  change (if 1 < T.base.min then _ else if 0 ≤ T.base.min ∧ T.base.max ≤ 1 then _ else _) = _
  rw [if_neg (show ¬ 1 < T.base.min by omega), if_neg (show ¬ (0 ≤ T.base.min ∧ T.base.max ≤ 1) by omega)]

/-- closed form of the conversion of a literal -/
theorem toBool_lit {p : EP} {T : Opd} {b : Bool} {t : Int} (hT : T.Wf) (hk : T.kind = .lit b) :
    toBool p T t =
      if T.lo = 0 ∨ T.lo = 1 then .ret (T.lo ≠ 0)
      else if 1 < T.lo ∨ b = false then .fault .illFormed
      else boolRun p T.lo := by
  have e := hT.2.2.2.2.2 b hk
  have h : T.Has T.lo := ⟨le_refl _, by omega⟩
  unfold toBool
  rw [hk]
  dsimp only
  rw [validateBool_eq hT h, ← e]
  by_cases h1 : T.lo = 0 ∨ T.lo = 1
  · rw [if_neg (by tauto), if_neg (by omega), if_pos (by omega), if_pos h1]
  · by_cases hb : b = false
    · rw [if_pos ⟨h1, by rw [hb]; rfl⟩, if_neg h1, if_pos (Or.inr hb)]
    · rw [if_neg (by simp [hb]), if_neg h1]
      by_cases h2 : 1 < T.lo
      · rw [if_pos h2, if_pos (Or.inl h2)]
      · rw [if_neg h2, if_neg (by omega), if_neg (by simp [h2, hb])]

end
end Verif
