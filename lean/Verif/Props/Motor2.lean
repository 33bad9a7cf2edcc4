import Verif.Proofs.Motor2

/-!
C80: the first safe version of the motor program (example92.cpp, motor2.c) as it runs on the desktop. The types are chosen
carefully enough that no move ends in undefined behaviour or goes on for ever; but it only gets to its target for some
distances, and for some others it runs past the target before an exception stops it.
-/

namespace Verif.Props
open Verif.Motor2 Spec

attribute [local instance] lp64

private theorem to_test {s s1 s2 : LState 30} {p q : Int} (hr : Ready s p q) (iq : Pos q) {d n : Int} {a : A}
    (e1 : Ends Γ motor_run (s.write pos_new q) (.ret ()) s1) (l : Live s1 p d n a) {r : Out Unit} (e2 : Ends Γ loop s1 r s2) :
    Ends Γ test s r s2 :=
  Run.ends_seq (arg_ends hr.hq iq (hr.typed m)) (Run.ends_seq e1 (do_loop l e2))

private theorem pos_start {s : LState 30} {p q : Int} (hr : Ready s p q) : Pos p := by
  have := hr.typed motor_pos; rw [hr.hp] at this; exact this

/-- C80. Sent to a position of its type whose distance is 1 to 220, 222, 437 or 439 to 6275 steps, the motor gets there and the
program ends, whatever the previous run left in the other variables. -/
theorem C80_arrives {s : LState 30} {p q : Int} (hr : Ready s p q) (iq : -32768 ≤ q ∧ q ≤ 32767) (hd : Reaches |q - p|) :
    ∃ s', Ends Γ test s (.ret ()) s' ∧ s'.st motor_pos = q ∧ s'.st run_flg = 0 := by
  have hne : p ≠ q := by
    rintro rfl
    rw [sub_self, abs_zero] at hd
    exact absurd hd (by decide)
  obtain ⟨s1, d, e1, hdd, hq, l⟩ := run_ends hr iq hne (by unfold Reaches at hd; omega)
  obtain ⟨n, hn⟩ := Int.eq_ofNat_of_zero_le (abs_nonneg (q - p))
  rw [hn] at l hd hq
  obtain ⟨s', e, hp, hf⟩ := (course p d (pos_start hr) (by rw [← hq]; exact iq) l).1 hd
  exact ⟨s', to_test hr iq e1 l e, by rw [hp, ← hq], hf⟩

/-- C80. Sent anywhere else the program ends with an exception: to a position outside the type of positions, or at any other
distance. -/
theorem C80_stops {s : LState 30} {p q : Int} (hr : Ready s p q) (hne : p ≠ q)
    (hd : ¬ ((-32768 ≤ q ∧ q ≤ 32767) ∧ Reaches |q - p|)) : ∃ x s', Ends Γ test s (.thrown x) s' := by
  by_cases iq : Pos q
  · have hd' : ¬ Reaches |q - p| := fun h => hd ⟨iq, h⟩
    by_cases hl : |q - p| ≤ 32767
    · obtain ⟨s1, d, e1, hdd, hq, l⟩ := run_ends hr iq hne hl
      obtain ⟨n, hn⟩ := Int.eq_ofNat_of_zero_le (abs_nonneg (q - p))
      rw [hn] at l hd' hq
      obtain ⟨x, s', e⟩ := (course p d (pos_start hr) (by rw [← hq]; exact iq) l).2.1 hd'
      exact ⟨x, s', to_test hr iq e1 l e⟩
    · obtain ⟨x, e⟩ := run_throws hr iq (by omega)
      exact ⟨x, _, Run.ends_seq (arg_ends hr.hq iq (hr.typed m)) (Run.ends_seq_throw e)⟩
  · obtain ⟨x, e⟩ := arg_throws hr.hq iq (hr.typed m)
    exact ⟨x, _, Run.ends_seq_throw e⟩

/-- C80. Exactly which moves succeed. -/
theorem C80_iff {s : LState 30} {p q : Int} (hr : Ready s p q) (hne : p ≠ q) :
    (∃ s', Ends Γ test s (.ret ()) s' ∧ s'.st motor_pos = q) ↔ (-32768 ≤ q ∧ q ≤ 32767) ∧ Reaches |q - p| := by
  refine ⟨fun ⟨s', ⟨k, e⟩, _⟩ => ?_, fun h => ?_⟩
  · by_contra hd
    obtain ⟨x, s2, k2, e2⟩ := C80_stops hr hne hd
    have h1 := e (k + k2) (by omega)
    rw [e2 (k + k2) (by omega)] at h1
    cases h1
  · obtain ⟨s', e, h1, _⟩ := C80_arrives hr h.1 h.2
    exact ⟨s', e, h1⟩

/-- C80. Whatever the target, the program ends, and not in undefined behaviour. -/
theorem C80_ends {s : LState 30} {p q : Int} (hr : Ready s p q) (hne : p ≠ q) :
    ∃ r s', Ends Γ test s r s' ∧ (r = .ret () ∨ ∃ x, r = .thrown x) := by
  by_cases h : (-32768 ≤ q ∧ q ≤ 32767) ∧ Reaches |q - p|
  · obtain ⟨s', e, _⟩ := C80_arrives hr h.1 h.2
    exact ⟨_, s', e, Or.inl rfl⟩
  · obtain ⟨x, s', e⟩ := C80_stops hr hne h
    exact ⟨_, s', e, Or.inr ⟨x, rfl⟩⟩

/-- C80. At a distance of 221, 223 to 436 or 438 steps the motor does not stop at its target: the exception comes 6501 or 6502 steps
from the start (if that is a position at all), more than 6000 steps too far. -/
theorem C80_runaway {s : LState 30} {p q : Int} (hr : Ready s p q) (iq : -32768 ≤ q ∧ q ≤ 32767) (hd : Runaway |q - p|)
    (hf : if p < q then p ≤ 32767 - 6502 else -32768 + 6502 ≤ p) :
    ∃ x s', Ends Γ test s (.thrown x) s' ∧ (|s'.st motor_pos - p| = 6501 ∨ |s'.st motor_pos - p| = 6502) ∧
      6000 < |s'.st motor_pos - q| ∧ ¬ (s'.st motor_pos ≤ p ∧ p < q) ∧ ¬ (p ≤ s'.st motor_pos ∧ q < p) := by
  have hne : p ≠ q := by
    rintro rfl
    rw [sub_self, abs_zero] at hd
    unfold Runaway at hd
    omega
  have ip := pos_start hr
  obtain ⟨s1, d, e1, hdd, hq, l⟩ := run_ends hr iq hne (by unfold Runaway at hd; omega)
  have ha : |q - p| = if p < q then q - p else p - q := by
    split
    · exact abs_of_nonneg (by omega)
    · rw [abs_of_nonpos (by omega)]; omega
  obtain ⟨n, hn⟩ := Int.eq_ofNat_of_zero_le (abs_nonneg (q - p))
  have hp2 : Pos (p + d * 6502) := by
    unfold Pos at ip ⊢
    rw [ha] at hq
    rcases hdd with rfl | rfl <;> split at hf <;> omega
  rw [hn] at l hq hd ha
  have key : ∀ z, (z = 6501 ∨ z = 6502) → ThrowsAt s1 (p + d * z) → ∃ x s', Ends Γ test s (.thrown x) s' ∧
      (|s'.st motor_pos - p| = 6501 ∨ |s'.st motor_pos - p| = 6502) ∧ 6000 < |s'.st motor_pos - q| ∧
      ¬ (s'.st motor_pos ≤ p ∧ p < q) ∧ ¬ (p ≤ s'.st motor_pos ∧ q < p) := by
    rintro z hz ⟨x, s', e, h⟩
    refine ⟨x, s', to_test hr iq e1 l e, ?_⟩
    rw [h]
    have hn' : (0 : Int) < n ∧ (n : Int) < 500 := by unfold Runaway at hd; omega
    rcases hdd with rfl | rfl
    · have h1 : |p + 1 * z - p| = z := by rw [abs_of_nonneg (by omega)]; omega
      have h2 : |p + 1 * z - q| = z - n := by rw [abs_of_nonneg (by omega)]; omega
      rw [h1, h2]
      refine ⟨hz, ?_, ?_, ?_⟩ <;> omega
    · have h1 : |p + -1 * z - p| = z := by rw [abs_of_nonpos (by omega)]; omega
      have h2 : |p + -1 * z - q| = z - n := by rw [abs_of_nonpos (by omega)]; omega
      rw [h1, h2]
      refine ⟨hz, ?_, ?_, ?_⟩ <;> omega
  rcases (course p d ip (by rw [← hq]; exact iq) l).2.2 hd hp2 with h | h
  · exact key 6501 (Or.inl rfl) h
  · exact key 6502 (Or.inr rfl) h

/-- C80. Sent to where it is, a motor at rest stays there: the one interrupt of the `do` loop finds it idle. (Its comparator value
still grows; it has to be in range for this.) -/
theorem C80_stays {s : LState 30} {p : Int} (hr : Ready s p p) (hi : s.st ramp_sts = 0) (hc : s.st c ≤ 12800000)
    (ho : s.st ccpr + s.st c ≤ 4294967295) : ∃ s', Ends Γ test s (.ret ()) s' ∧ s'.st motor_pos = p ∧ s'.st run_flg = 0 := by
  have ip := pos_start hr
  have h1 : 0 ≤ s.st c ∧ s.st c ≤ 4294967295 := hr.typed c
  have h2 : 0 ≤ s.st ccpr ∧ s.st ccpr ≤ 4294967295 := hr.typed ccpr
  obtain ⟨s', e, hp, hf⟩ := turn_idle (s := s.write pos_new p) (v := s.st c) (w := s.st ccpr) hi rfl rfl (by omega) h2.1 ho
  exact ⟨s', Run.ends_seq (arg_ends hr.hq ip (hr.typed m)) (Run.ends_seq (run_none hr ip) (Run.ends_seq e (Run.ends_while_false (idle hf)))),
    hp.trans hr.hp, hf⟩

/- the hypotheses can be met: every variable is 0 except the target, and the same with a start of 200 and a target of -100 -/
example (q : Int) (h : -2147483648 ≤ q ∧ q ≤ 2147483647) : Ready ⟨fun j => if j = m then q else 0, ⟨[], true, false⟩, [], 0⟩ 0 q := by
  refine ⟨rfl, rfl, fun i => ?_, rfl, rfl⟩
  by_cases hi : i = m
  · subst hi; exact h
  · simp only [if_neg hi]
    revert hi i
    decide +kernel
example : Ready ⟨fun j => if j = m then -100 else if j = motor_pos then 200 else if j = phase_ix then 3 else if j = c then 640000 else 0,
    ⟨[], true, false⟩, [], 0⟩ 200 (-100) :=
  ⟨by decide, by decide, by decide +kernel, by decide, by decide⟩
/- the moves of example92.cpp:180-195 are among those that succeed (0 to 1000, to 200, to 0), the one commented out is not; and
some others -/
example : Reaches |1000 - 0| ∧ Reaches |200 - 1000| ∧ Reaches |0 - 200| ∧ ¬ Reaches |50000 - 0| ∧ ¬ Reaches |300 - 0| ∧ Runaway 300 ∧
    ¬ Reaches |(-20000) - 0| := by
  refine ⟨by decide, by decide, by decide, by decide, by decide, ?_, by decide⟩
  unfold Runaway; omega

end Verif.Props
