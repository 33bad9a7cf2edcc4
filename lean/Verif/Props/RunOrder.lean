import Verif.Props.Run
import Verif.Props.Order
import Verif.Props.Subset

/-!
Property C98, with operands evaluated in any order (C92), and for the programs of the subset of C95.
-/

namespace Verif.Props
open Spec Lang

section
variable [Arch]

/-- The executions of a covered program that compiles, with operands evaluated in any order, are exactly the runs over the integers. -/
theorem C98_order_partial {N : Names} (hN : Careful N) {n : Nat} (Γ : Fin n → PTy N) (hΓ : GoodVars Γ) (p : LStmt N n)
    (hp : SCovered Γ p) (ha : SAccepted Γ p) (s : LState n) (hs : Ranged Γ s.st) (b : Bool) (t : RState n) :
    Runs Γ p (seen s) b t ↔ ∃ r s', AnyS Γ p s r s' ∧ Matches b r ∧ seen s' = t := by
  constructor
  · intro h
    obtain ⟨f, o, s', h1, _, ⟨m, e⟩ | h2⟩ := C98_runs_partial hN Γ hΓ p _ _ b h hp s rfl hs
    · exact ⟨o, s', (C92_model Γ p s).1 o s' ⟨f, C59_bound Γ f p s (o, s') h1⟩, m, e⟩
    · exact absurd (by rw [h1, h2]) (C67_program_partial hN Γ hΓ f p s s' hp ha hs)
  · rintro ⟨r, s', h, m, rfl⟩
    have hn := (C92_covered hN Γ hΓ p hp ha s hs).1
    obtain ⟨r', ⟨f, g⟩, k⟩ := (C92_model Γ p s).2 hn r s' h
    have m' : Matches b r' := by
      rcases k with rfl | ⟨⟨e, rfl⟩, h2⟩
      · exact m
      · cases b
        · exact h2
        · cases m
    rcases C98_exec_partial hN Γ hΓ f p s s' r' hp hs (g f (Nat.le_refl f)) with ⟨b', m2, r2⟩ | ho
    · cases b <;> cases b'
      · exact r2
      · obtain ⟨e, rfl⟩ := m'; cases m2
      · obtain ⟨e, rfl⟩ := m2; cases m'
      · exact r2
    · subst ho
      cases b
      · obtain ⟨e, he⟩ := m'; cases he
      · cases m'

/-- A triple can be derived if and only if it is true of all executions in all orders. -/
theorem C98_logic_order_partial {N : Names} (hN : Careful N) {n : Nat} (Γ : Fin n → PTy N) (hΓ : GoodVars Γ) (p : LStmt N n)
    (hp : SCovered Γ p) (ha : SAccepted Γ p) (P Q E : RState n → Prop) :
    Hoare Γ (fun s => Ranged Γ s.st ∧ P s) p Q E ↔
      ∀ (s s' : LState n) (r : Out Unit), Ranged Γ s.st → P (seen s) → AnyS Γ p s r s' →
        (r = .ret () ∧ Q (seen s')) ∨ ((∃ e, r = .thrown e) ∧ E (seen s')) := by
  rw [(C98_logic_partial hN Γ hΓ p hp ha P Q E).1]
  constructor
  · intro h s s' r hs hP hr
    obtain ⟨r', ⟨f, g⟩, k⟩ := (C92_model Γ p s).2 (C92_covered hN Γ hΓ p hp ha s hs).1 r s' hr
    rcases h f s s' r' hs hP (g f (Nat.le_refl f)) with ⟨h1, h2⟩ | ⟨h1, h2⟩
    · rcases k with rfl | ⟨_, e, he⟩
      · exact Or.inl ⟨h1, h2⟩
      · rw [h1] at he; cases he
    · rcases k with rfl | ⟨he, _⟩
      · exact Or.inr ⟨h1, h2⟩
      · exact Or.inr ⟨he, h2⟩
  · intro h f s s' o hs hP he
    exact h s s' o hs hP ((C92_model Γ p s).1 o s' ⟨f, C59_bound Γ f p s (o, s') he⟩)

private theorem careful_of {N : Names} (hN : Plainly N) : Careful N := ⟨hN.1, fun q => by rw [hN.2.2 q]; trivial⟩

/-- The programs of the subset of C95, which is described by syntax and declared types. -/
theorem C98_subset {N : Names} (hN : Plainly N) {n : Nat} (Γ : Fin n → PTy N) (hΓ : GoodVars Γ) (p : LStmt N n)
    (hp : PlainS Γ p) (ha : SAccepted Γ p) (P Q E : RState n → Prop) :
    (Hoare Γ (fun s => Ranged Γ s.st ∧ P s) p Q E ↔
      ∀ (s s' : LState n) (r : Out Unit), Ranged Γ s.st → P (seen s) → AnyS Γ p s r s' →
        (r = .ret () ∧ Q (seen s')) ∨ ((∃ e, r = .thrown e) ∧ E (seen s'))) ∧
    (HoareT Γ (fun s => Ranged Γ s.st ∧ P s) p Q E ↔
      ∀ s : LState n, Ranged Γ s.st → P (seen s) → ∃ f s' o, p.exec Γ f s = some (o, s') ∧
        ((o = .ret () ∧ Q (seen s')) ∨ ((∃ e, o = .thrown e) ∧ E (seen s')))) :=
  ⟨C98_logic_order_partial (careful_of hN) Γ hΓ p (C95_covered hN Γ hΓ p hp) ha P Q E,
    (C98_logic_partial (careful_of hN) Γ hΓ p (C95_covered hN Γ hΓ p hp) ha P Q E).2⟩

end

/-! ### examples -/

namespace Handler
attribute [local instance] lp64
open Euclid (careful)

-- in every order of evaluation `square` ends normally, with the square if it is an `int` and otherwise zero
example (s s' : LState 3) (r : Out Unit) (hs : Ranged Γ s.st) (h : AnyS Γ square s r s') :
    r = .ret () ∧ s'.st 0 = if i32.In (s.st 0 * s.st 0) then s.st 0 * s.st 0 else 0 := by
  have d := square_hoare (fun t => Ranged Γ t.st ∧ t = seen s) (s.st 0) (hs 0) (fun _ h => by rw [h.2]; rfl)
  rcases (C98_logic_order_partial careful Γ good square square_covered square_accepted (fun t => t = seen s) _ _).1 d s s' r hs rfl h with
    ⟨h1, t, ⟨_, rfl⟩, h2⟩ | ⟨_, h⟩
  · exact ⟨h1, congrFun (congrArg RState.st h2) 0⟩
  · exact h.elim

-- and there is such an execution from every state within the ranges
example (s : LState 3) (hs : Ranged Γ s.st) (h : i32.In (s.st 0 * s.st 0)) :
    ∃ r s', AnyS Γ square s r s' ∧ Matches true r ∧ seen s' = (seen s).put ((seen s).ints.write 0 (s.st 0 * s.st 0)) :=
  (C98_order_partial careful Γ good square square_covered square_accepted s hs true _).1
    (.try (.basic trivial ((square_fits (seen s) (hs 0)).2 h) rfl))

end Handler

namespace Subset
attribute [local instance] lp64

/-- `try { x0 = x0 * x1 - x2; } catch(...) { x0 = x2; }` -/
def guard : LStmt names 4 :=
  .tryCatch (.assign 0 (.bin (.ar .sub) (.bin (.ar .mul) (.var 0) (.var 1)) (.var 2))) (.assign 0 (.var 2))

theorem guard_plain : PlainS Γ guard :=
  ⟨⟨⟨⟨trivial, trivial, rfl, nofun⟩, trivial, rfl, nofun⟩, rfl⟩, trivial, rfl⟩

theorem guard_accepted : SAccepted Γ guard :=
  ⟨⟨⟨⟨trivial, trivial, w, w, rfl, rfl, 0, 0, by decide +kernel⟩, trivial, w, w, by decide +kernel, rfl, 0, 0, by decide +kernel⟩,
    w, by decide +kernel, 0, by decide +kernel⟩, trivial, w, rfl, 0, by decide +kernel⟩

example (P Q E : RState 4 → Prop) : Hoare Γ (fun s => Ranged Γ s.st ∧ P s) guard Q E ↔
    ∀ (s s' : LState 4) (r : Out Unit), Ranged Γ s.st → P (seen s) → AnyS Γ guard s r s' →
      (r = .ret () ∧ Q (seen s')) ∨ ((∃ e, r = .thrown e) ∧ E (seen s')) :=
  (C98_subset plainly Γ good guard guard_plain guard_accepted P Q E).1

end Subset
end Verif.Props
