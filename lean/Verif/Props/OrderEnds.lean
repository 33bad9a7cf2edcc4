import Verif.Props.RunOrder
import Verif.EndsSpec

/-!
Property C92 and C98: executions in any order of evaluation end.
-/

namespace Verif.Props
open Spec Lang

section
variable [Arch]

/-- an execution from left to right is one of those that have not ended -/
private theorem unfinished_of_none {N : Names} {n : Nat} {Γ : Fin n → PTy N} :
    ∀ (f : Nat) (p : LStmt N n) (s : LState n), p.exec Γ f s = none → Unfinished Γ f p s
  | 0, _, _, _ => .zero
  | f + 1, .skip, s, h => by cases h
  | f + 1, .assign i e, s, h => by cases h
  | f + 1, .opAssign o i e, s, h => by cases h
  | f + 1, .inc i, s, h => by cases h
  | f + 1, .dec i, s, h => by cases h
  | f + 1, .input i, s, h => by cases h
  | f + 1, .output e, s, h => by
    unfold LStmt.exec at h
    split at h <;> cases h
  | f + 1, .seq a b, s, h => by
    unfold LStmt.exec at h
    rcases ha : a.exec Γ f s with _ | ⟨r, s1⟩
    · exact .seqL (unfinished_of_none f a s ha)
    · rw [ha] at h
      cases r with
      | ret u => exact .seqR ((C92_model Γ a s).1 _ _ ⟨f, C59_bound Γ f a s _ ha⟩) (unfinished_of_none f b s1 h)
      | thrown e => cases h
      | fault k => cases h
  | f + 1, .ite c a b, s, h => by
    unfold LStmt.exec at h
    have hc := (C92_cond Γ s.st c).1
    rcases ec : c.eval Γ s.st with x | x | x <;> rw [ec] at h hc
    · cases x
      · exact .iteF hc (unfinished_of_none f b s h)
      · exact .iteT hc (unfinished_of_none f a s h)
    · cases h
    · cases h
  | f + 1, .while c a, s, h => by
    unfold LStmt.exec at h
    have hc := (C92_cond Γ s.st c).1
    rcases ec : c.eval Γ s.st with x | x | x <;> rw [ec] at h hc
    · cases x
      · cases h
      · rcases ha : a.exec Γ f s with _ | ⟨r, s1⟩
        · exact .body hc (unfinished_of_none f a s ha)
        · rw [ha] at h
          cases r with
          | ret u => exact .round hc ((C92_model Γ a s).1 _ _ ⟨f, C59_bound Γ f a s _ ha⟩) (unfinished_of_none f _ s1 h)
          | thrown e => cases h
          | fault k => cases h
    · cases h
    · cases h
  | f + 1, .tryCatch a b, s, h => by
    unfold LStmt.exec at h
    rcases ha : a.exec Γ f s with _ | ⟨r, s1⟩
    · exact .try (unfinished_of_none f a s ha)
    · rw [ha] at h
      cases r with
      | ret u => cases h
      | thrown e => exact .handler ((C92_model Γ a s).1 _ _ ⟨f, C59_bound Γ f a s _ ha⟩) (unfinished_of_none f b _ h)
      | fault k => cases h

/-- an execution that ends, in any order, and one from left to right that ended -/
private theorem same_end {N : Names} {n : Nat} {Γ : Fin n → PTy N} {p : LStmt N n} {s s1 s2 : LState n} {r1 r2 : Out Unit} {f : Nat}
    (hn : NeverFaults Γ p s) (h : AnyS Γ p s r1 s1) (he : p.exec Γ f s = some (r2, s2)) : s1 = s2 ∧ SameKind r1 r2 := by
  obtain ⟨r', ⟨k, g⟩, m⟩ := (C92_model Γ p s).2 hn r1 s1 h
  have e := (g (max k f) (Nat.le_max_left _ _)).symm.trans (C59_bound Γ f p s _ he (max k f) (Nat.le_max_right _ _))
  simp only [Option.some.injEq, Prod.mk.injEq] at e
  exact ⟨e.2, e.1 ▸ m⟩

private theorem none_of_unfinished {N : Names} {n : Nat} {Γ : Fin n → PTy N} {f : Nat} {p : LStmt N n} {s : LState n}
    (h : Unfinished Γ f p s) : NeverFaults Γ p s → p.exec Γ f s = none := by
  induction h with
  | zero => intro _; unfold LStmt.exec; rfl
  | @seqL f a s b _ ih =>
    intro hn
    have na : NeverFaults Γ a s := fun r s' k h e => hn r s' k (.seqErr h (by rw [e]; nofun)) e
    unfold LStmt.exec; rw [ih na]
  | @seqR a s s1 f b h1 _ ih =>
    intro hn
    have na : NeverFaults Γ a s := fun r s' k h e => hn r s' k (.seqErr h (by rw [e]; nofun)) e
    have nb : NeverFaults Γ b s1 := fun r s' k h e => hn r s' k (.seq h1 h) e
    unfold LStmt.exec
    rcases ha : a.exec Γ f s with _ | ⟨r, s2⟩
    · rfl
    · obtain ⟨rfl, k⟩ := same_end na h1 ha
      rcases k with rfl | ⟨⟨_, k⟩, _⟩
      · exact ih nb
      · cases k
  | @iteT c f a s b hc _ ih =>
    intro hn
    unfold LStmt.exec
    rw [(C92_cond Γ s.st c).2 _ _ hc (C92_cond Γ s.st c).1]
    exact ih fun r s' k h e => hn r s' k (.iteT hc h) e
  | @iteF c f b s a hc _ ih =>
    intro hn
    unfold LStmt.exec
    rw [(C92_cond Γ s.st c).2 _ _ hc (C92_cond Γ s.st c).1]
    exact ih fun r s' k h e => hn r s' k (.iteF hc h) e
  | @body c f a s hc _ ih =>
    intro hn
    unfold LStmt.exec
    rw [(C92_cond Γ s.st c).2 _ _ hc (C92_cond Γ s.st c).1]
    have na : NeverFaults Γ a s := fun r s' k h e => hn r s' k (.whileT hc (.seqErr h (by rw [e]; nofun))) e
    simp only [ih na]
  | @round c a s s1 f hc h1 _ ih =>
    intro hn
    unfold LStmt.exec
    rw [(C92_cond Γ s.st c).2 _ _ hc (C92_cond Γ s.st c).1]
    have na : NeverFaults Γ a s := fun r s' k h e => hn r s' k (.whileT hc (.seqErr h (by rw [e]; nofun))) e
    have nb : NeverFaults Γ (.while c a) s1 := fun r s' k h e => hn r s' k (.whileT hc (.seq h1 h)) e
    rcases ha : a.exec Γ f s with _ | ⟨r, s2⟩
    · rfl
    · obtain ⟨rfl, k⟩ := same_end na h1 ha
      rcases k with rfl | ⟨⟨_, k⟩, _⟩
      · exact ih nb
      · cases k
  | @«try» f a s b _ ih =>
    intro hn
    have na : NeverFaults Γ a s := fun r s' k h e => hn r s' k (.noCatch h (by rw [e]; nofun)) e
    unfold LStmt.exec; rw [ih na]
  | @handler a s e s1 f b h1 _ ih =>
    intro hn
    have na : NeverFaults Γ a s := fun r s' k h e => hn r s' k (.noCatch h (by rw [e]; nofun)) e
    have nb : NeverFaults Γ b { s1 with caught := s1.caught + 1 } := fun r s' k h e => hn r s' k (.handle h1 h) e
    unfold LStmt.exec
    rcases ha : a.exec Γ f s with _ | ⟨r, s2⟩
    · rfl
    · obtain ⟨rfl, k⟩ := same_end na h1 ha
      rcases k with rfl | ⟨_, e', rfl⟩
      · exact ih nb
      · exact ih nb

/-- For a program that faults in no order, the executions in all orders take equally many nested steps; so all end if the one from left
to right ends. -/
theorem C92_ends {N : Names} {n : Nat} (Γ : Fin n → PTy N) (p : LStmt N n) (s : LState n) (hn : NeverFaults Γ p s) :
    (∀ f, Unfinished Γ f p s ↔ p.exec Γ f s = none) ∧ (AlwaysEnds Γ p s ↔ ∃ r s', Ends Γ p s r s') := by
  have h : ∀ f, Unfinished Γ f p s ↔ p.exec Γ f s = none := fun f => ⟨fun h => none_of_unfinished h hn, unfinished_of_none f p s⟩
  refine ⟨h, ⟨fun ⟨f, g⟩ => ?_, fun ⟨r, s', k, g⟩ => ⟨k, fun u => ?_⟩⟩⟩
  · rcases e : p.exec Γ f s with _ | ⟨r, s'⟩
    · exact absurd ((h f).2 e) g
    · exact ⟨r, s', f, C59_bound Γ f p s _ e⟩
  · have e := g k (Nat.le_refl k)
    rw [(h k).1 u] at e
    cases e

/-- The programs of C92 that are covered: whether the executions end does not depend on the order. -/
theorem C92_ends_covered {N : Names} (hN : Careful N) {n : Nat} (Γ : Fin n → PTy N) (hΓ : GoodVars Γ) (p : LStmt N n) (hp : SCovered Γ p)
    (ha : SAccepted Γ p) (s : LState n) (hs : Ranged Γ s.st) : AlwaysEnds Γ p s ↔ ∃ r s', Ends Γ p s r s' :=
  (C92_ends Γ p s (C92_covered hN Γ hΓ p hp ha s hs).1).2

/-- The logic for total correctness: a triple can be derived if and only if, from every state with `P`, all executions in all orders end,
as the triple says. -/
theorem C98_total_order_partial {N : Names} (hN : Careful N) {n : Nat} (Γ : Fin n → PTy N) (hΓ : GoodVars Γ) (p : LStmt N n)
    (hp : SCovered Γ p) (ha : SAccepted Γ p) (P Q E : RState n → Prop) :
    HoareT Γ (fun s => Ranged Γ s.st ∧ P s) p Q E ↔
      ∀ s : LState n, Ranged Γ s.st → P (seen s) → AlwaysEnds Γ p s ∧
        ∀ (r : Out Unit) (s' : LState n), AnyS Γ p s r s' → (r = .ret () ∧ Q (seen s')) ∨ ((∃ e, r = .thrown e) ∧ E (seen s')) := by
  rw [(C98_logic_partial hN Γ hΓ p hp ha P Q E).2]
  constructor
  · intro h s hs hP
    obtain ⟨f, s', o, he, hq⟩ := h s hs hP
    have hn := (C92_covered hN Γ hΓ p hp ha s hs).1
    refine ⟨(C92_ends Γ p s hn).2.2 ⟨o, s', f, C59_bound Γ f p s _ he⟩, fun r s2 h2 => ?_⟩
    obtain ⟨rfl, k⟩ := same_end hn h2 he
    rcases k with rfl | ⟨k1, e, k2⟩
    · exact hq
    · rcases hq with ⟨h1, _⟩ | ⟨_, h1⟩
      · rw [h1] at k2; cases k2
      · exact Or.inr ⟨k1, h1⟩
  · intro h s hs hP
    obtain ⟨h1, h2⟩ := h s hs hP
    obtain ⟨r, s', f, g⟩ := (C92_ends_covered hN Γ hΓ p hp ha s hs).1 h1
    exact ⟨f, s', r, g f (Nat.le_refl f), h2 r s' ((C92_model Γ p s).1 r s' ⟨f, g⟩)⟩

end

/-! ### examples -/

namespace Handler
attribute [local instance] lp64
open Euclid (careful)

theorem loop_accepted : SAccepted Γ loop := by
  refine ⟨⟨trivial, trivial, z, z, rfl, rfl, 0, 0, by decide +kernel⟩, ⟨⟨0, 1, by decide +kernel⟩, z, by decide +kernel, 0, by decide +kernel⟩,
    square_accepted⟩

-- in every order of evaluation the loop ends, normally, and `i` has reached `n`
example (s : LState 3) (hs : Ranged Γ s.st) : AlwaysEnds Γ loop s ∧ ∀ r s', AnyS Γ loop s r s' → r = .ret () ∧ s'.st 2 ≤ s'.st 1 := by
  have d := (C98_total_order_partial careful Γ good loop loop_covered loop_accepted (fun _ => True) _ _).1
    (.conseq (fun _ h => h.1) loop_total (fun _ h => h) (fun _ h => h)) s hs trivial
  refine ⟨d.1, fun r s' h => ?_⟩
  rcases d.2 r s' h with ⟨h1, h2⟩ | ⟨_, h⟩
  · exact ⟨h1, h2.2⟩
  · exact h.elim

end Handler
end Verif.Props
