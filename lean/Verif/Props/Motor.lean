import Verif.Proofs.Motor

/-!
C70: the stepper motor program of the tutorial (`example/example93.cpp`, `example/motor3.c`).
-/

namespace Verif.Props
open Spec Lang Motor

attribute [local instance] lp64

/-- Wherever the motor is and wherever it is sent, unless the target is exactly one step away, the program ends without an
exception, an undefined operation or a failed assertion; the motor is at the target after exactly as many interrupts as the
distance, is idle, its interrupt is disabled and the windings show the phase that belongs to the distance. -/
theorem C70_arrives (s : LState 23) (p q : Int) (h : Ready s p q) (hne : p - q ≠ 1 ∧ q - p ≠ 1) :
    ∃ s', Ends Γ test s (.ret ()) s' ∧ s'.st motor_position = q ∧ s'.st ramp_sts = 0 ∧ s'.caught = s.caught ∧
      (p ≠ q → s'.st i = |q - p| ∧ s'.st CCP1IE = 0 ∧ s'.st phase_ix = (q - p) % 4 ∧
        Regs s' ((q - p) % 4) (s'.st ccpr)) := by
  have pr := h.pr
  have qr := h.qr
  rcases lt_trichotomy p q with hlt | rfl | hlt
  · obtain ⟨s1, e1, a1, r1⟩ := run_up h hlt
    obtain ⟨s2, v, e2, a2, r2, h0⟩ := up_loop ((q - p) / 2 - 1).toNat (q := q) a1 (by omega) (by omega) (by omega) (by omega)
      accel_start (by unfold Ahead; omega) (by omega) (by omega)
    have hph : s2.st phase_ix = (q - p) % 4 := by rw [a2.ph]; simp
    refine ⟨s2, Run.ends_seq e1 e2, a2.hp, a2.ha, by rw [r2.2.2.1, r1.2.2.1], fun _ => ⟨?_, h0, hph, ?_⟩⟩
    · rw [a2.hi, abs_of_pos (by omega)]
    · rw [← hph]; exact a2.shown
  · obtain ⟨s1, e1, h1, r1⟩ := run_stay h
    refine ⟨s1, Run.ends_seq e1 (Run.ends_while_false (busy_eval h1 (by decide))), ?_, h1, r1.2.2.1, fun hc => absurd rfl hc⟩
    rw [r1.st (by decide), h.hp]
  · obtain ⟨s1, e1, a1, r1⟩ := run_down h hlt
    obtain ⟨s2, v, e2, a2, r2, h0⟩ := up_loop ((p - q) / 2 - 1).toNat (q := q) a1 (by omega) (by omega) (by omega) (by omega)
      accel_start (by unfold Ahead; omega) (by omega) (by omega)
    have hph : s2.st phase_ix = (q - p) % 4 := by
      rw [a2.ph]
      simp only [if_true]
      congr 1
      omega
    refine ⟨s2, Run.ends_seq e1 e2, a2.hp, a2.ha, by rw [r2.2.2.1, r1.2.2.1], fun _ => ⟨?_, h0, hph, ?_⟩⟩
    · rw [a2.hi, abs_of_neg (by omega)]; omega
    · rw [← hph]; exact a2.shown

/-- A target exactly one step away is missed: the motor starts, never begins to slow down, runs through the target to the end of
the range and the program ends with the exception that leaving the range of `position_t` raises. -/
theorem C70_one_step (s : LState 23) (p q : Int) (h : Ready s p q) :
    (q - p = 1 → ∃ s', Ends Γ test s (.thrown .positive_overflow_error) s' ∧ s'.st motor_position = 50000 ∧
      s'.st i = 50000 - p ∧ s'.st ramp_sts = 1) ∧
    (p - q = 1 → ∃ s', Ends Γ test s (.thrown .domain_error) s' ∧ s'.st motor_position = 0 ∧
      s'.st i = p ∧ s'.st ramp_sts = 1) := by
  have pr := h.pr
  have qr := h.qr
  constructor
  · intro h1
    obtain ⟨s1, e1, a1, r1⟩ := run_up h (by omega)
    rw [h1] at a1
    obtain ⟨s2, e2, g1, g2, r2⟩ := forever (50000 - p).toNat (q := 50000) a1 (by omega) (by omega) accel_start
      (by unfold Ahead; omega) (by omega) (by omega)
    exact ⟨s2, Run.ends_seq e1 e2, g1.1, by omega, g1.2⟩
  · intro h1
    obtain ⟨s1, e1, a1, r1⟩ := run_down h (by omega)
    rw [h1] at a1
    obtain ⟨s2, e2, g1, g2, r2⟩ := forever p.toNat (q := 0) a1 (by omega) (by omega) accel_start
      (by unfold Ahead; omega) (by omega) (by omega)
    exact ⟨s2, Run.ends_seq e1 e2, g1.1, by omega, g1.2⟩

/-- On the way, after `k` interrupts, the motor is `k` steps from where it started, on the side of the target; the windings are
`k + 1` phases (`k` once it is idle) from the first; the delay is at least 6400 and at most 1280000; and the state is never
`ramp_const`: the maximal speed is not reached. -/
theorem C70_course (s : LState 23) (p q : Int) (h : Ready s p q) (hne : p ≠ q) (k : Nat) (s' : LState 23) (hr : Reached s k s') :
    s'.st motor_position = (if p < q then p + k else p - k) ∧ s'.st i = k ∧
      6400 ≤ s'.st c ∧ s'.st c ≤ 1280000 ∧
      (s'.st ramp_sts = 0 ∨ s'.st ramp_sts = 1 ∨ s'.st ramp_sts = 3) ∧
      (s'.st ramp_sts = 1 → 8000 ≤ s'.st c) ∧
      (s'.st ramp_sts ≠ 0 → s'.st phase_ix = (if p < q then (k : Int) + 1 else -(k + 1)) % 4) ∧
      Regs s' (s'.st phase_ix) (s'.st ccpr) := by
  have pr := h.pr
  have qr := h.qr
  obtain ⟨D, hD⟩ : ∃ D : Int, D = if p < q then 1 else -1 := ⟨_, rfl⟩
  obtain ⟨L, hL⟩ : ∃ L : Int, L = if p < q then q - p else p - q := ⟨_, rfl⟩
  have hL' : 1 ≤ L ∧ L ≤ 50000 := by split at hL <;> omega
  have hc : Course s' D L p k := by
    induction hr with
    | run e =>
      have : ∃ s1, Ends Γ motor_run s (.ret ()) s1 ∧ At s1 D L (L / 2) p 0 1280000 1 := by
        rcases lt_or_gt_of_ne hne with hlt | hlt
        · obtain ⟨s1, e1, a1, _⟩ := run_up h hlt
          rw [if_pos hlt] at hD hL
          subst hD hL
          exact ⟨s1, e1, a1⟩
        · obtain ⟨s1, e1, a1, _⟩ := run_down h hlt
          rw [if_neg (by omega)] at hD hL
          subst hD hL
          exact ⟨s1, e1, a1⟩
      obtain ⟨s1, e1, a1⟩ := this
      obtain ⟨_, rfl⟩ := ends_unique e1 e
      refine ⟨1280000, Or.inl ⟨?_, accel_start, by simp; omega⟩⟩
      simpa using a1
    | turn _ hb e ih => exact course_step hL' pr ih hb e
  obtain ⟨v, hc⟩ := hc
  have hp : ∀ a, At s' D L (L / 2) (p + D * k) k v a → (a = 0 ∨ a = 1 ∨ a = 3) → (a = 1 → 8000 ≤ v) →
      s'.st motor_position = (if p < q then p + k else p - k) ∧ s'.st i = k ∧
      6400 ≤ s'.st c ∧ s'.st c ≤ 1280000 ∧
      (s'.st ramp_sts = 0 ∨ s'.st ramp_sts = 1 ∨ s'.st ramp_sts = 3) ∧
      (s'.st ramp_sts = 1 → 8000 ≤ s'.st c) ∧
      (s'.st ramp_sts ≠ 0 → s'.st phase_ix = (if p < q then (k : Int) + 1 else -(k + 1)) % 4) ∧
      Regs s' (s'.st phase_ix) (s'.st ccpr) := by
    intro a ha h1 h2
    refine ⟨?_, ha.hi, ha.live.cr.1, ha.live.cr.2, by rw [ha.ha]; exact h1, ?_, ?_, ha.shown⟩
    · rw [ha.hp, hD]; split <;> omega
    · rw [ha.ha, ha.hc]; exact h2
    · intro h0
      rw [ha.ph, if_neg (by rw [← ha.ha]; exact h0), hD]
      split <;> (congr 1; omega)
  rcases hc with ⟨hc, g, _⟩ | ⟨hc, _⟩ | ⟨hc, _⟩
  · exact hp 1 hc (by decide) (fun _ => g.1)
  · exact hp 3 hc (by decide) (fun h => absurd h (by decide))
  · exact hp 0 hc (by decide) (fun h => absurd h (by decide))

/- the hypotheses can be met: the motor is at 0 (every variable is 0, in particular `c`, which is outside the range of its type)
and is sent to 200, or from 200 to 0, or from 7 to 8 -/
example : Ready ⟨fun j => if j = new_position then 200 else 0, ⟨[], true, false⟩, [], 0⟩ 0 200 :=
  ⟨by decide, by decide, by decide, by decide, by decide, by decide, by decide⟩
example : Ready ⟨fun j => if j = motor_position then 200 else 0, ⟨[], true, false⟩, [], 0⟩ 200 0 :=
  ⟨by decide, by decide, by decide, by decide, by decide, by decide, by decide⟩
example : Ready ⟨fun j => if j = motor_position then 7 else if j = new_position then 8 else 0, ⟨[], true, false⟩, [], 0⟩ 7 8 :=
  ⟨by decide, by decide, by decide, by decide, by decide, by decide, by decide⟩
/- and a state on the way exists, whatever the start -/
example (s : LState 23) (h : Ready s 0 200) : ∃ s', Reached s 0 s' :=
  let ⟨s', e, _⟩ := run_up h (by decide)
  ⟨s', .run e⟩

end Verif.Props
