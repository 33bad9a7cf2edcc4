import Verif.Proofs.SafeOps

/-!
Properties C16 and C19, three-valued answers: comparisons of checked results and predicates of intervals of checked
results answer "true" or "false" exactly when every choice of the numbers they stand for gives that answer.
-/

namespace Verif.Props
open Spec
section
variable [Arch]

omit [Arch] in
private theorem describes_ex {R : ITy} {c : CR} (h : Proper R c) : ∃ x, Describes R c x := by
  rcases c with v | e
  · exact ⟨v, h, rfl⟩
  · cases e
    · exact absurd rfl h
    · exact ⟨R.max + 1, show R.max < R.max + 1 by omega⟩
    · exact ⟨R.min - 1, show R.min - 1 < R.min by omega⟩
    all_goals exact ⟨0, trivial⟩

omit [Arch] in
private theorem vague_all {R : ITy} {c : CR} (h : Proper R c) (hv : Vague c) (x : Int) : Describes R c x := by
  obtain ⟨e, rfl, h1, h2⟩ := hv
  exact describes_vague h h1 h2

private theorem sumFlag_err_vague {c : CR} (h : Vague c) : sumFlag c = .indeterminate := h.sumFlag

private theorem crLt_vague_left {R : ITy} {t u : CR} (h : Vague t) : crLt R t u = .ind := by
  obtain ⟨e, rfl, h1, h2⟩ := h
  rcases u with v | e'
  · cases e <;> first | rfl | contradiction
  · cases e <;> first | contradiction | (cases e' <;> rfl)

private theorem crLt_vague_right {R : ITy} {t u : CR} (h : Vague u) : crLt R t u = .ind := by
  obtain ⟨e, rfl, h1, h2⟩ := h
  rcases t with v | e'
  · cases e <;> first | rfl | contradiction
  · cases e <;> first | contradiction | (cases e' <;> rfl)

private theorem crEq_vague_left {R : ITy} {t u : CR} (h : Vague t) : crEq R t u = .ind := by
  obtain ⟨e, rfl, h1, h2⟩ := h
  rcases u with v | e'
  · cases e <;> first | rfl | contradiction
  · cases e <;> first | contradiction | (cases e' <;> rfl)

private theorem crEq_vague_right {R : ITy} {t u : CR} (h : Vague u) : crEq R t u = .ind := by
  obtain ⟨e, rfl, h1, h2⟩ := h
  rcases t with v | e'
  · cases e <;> first | rfl | contradiction
  · cases e <;> first | contradiction | (cases e' <;> rfl)

/-- an indeterminate `<` leaves both answers possible -/
private theorem crLt_ind {R : ITy} {t u : CR} (ht : Proper R t) (hu : Proper R u) (h : crLt R t u = .ind) :
    (∃ x y, Describes R t x ∧ Describes R u y ∧ x < y) ∧ (∃ x y, Describes R t x ∧ Describes R u y ∧ y ≤ x) := by
  by_cases vt : Vague t
  · obtain ⟨y, hy⟩ := describes_ex hu
    exact ⟨⟨y - 1, y, vague_all ht vt _, hy, by omega⟩, ⟨y, y, vague_all ht vt _, hy, by omega⟩⟩
  by_cases vu : Vague u
  · obtain ⟨x, hx⟩ := describes_ex ht
    exact ⟨⟨x, x + 1, hx, vague_all hu vu _, by omega⟩, ⟨x, x, hx, vague_all hu vu _, by omega⟩⟩
  rcases t.cases4 with ⟨a, rfl⟩ | rfl | rfl | v
  · rcases u.cases4 with ⟨b, rfl⟩ | rfl | rfl | v
    · rw [crLt_ok ht hu] at h
      cases h' : decide (a < b) <;> rw [h'] at h <;> cases h
    · cases h
    · cases h
    · exact absurd v vu
  · rcases u.cases4 with ⟨b, rfl⟩ | rfl | rfl | v
    · cases h
    · exact ⟨⟨R.min - 2, R.min - 1, show R.min - 2 < R.min by omega, show R.min - 1 < R.min by omega, by omega⟩,
        ⟨R.min - 1, R.min - 1, show R.min - 1 < R.min by omega, show R.min - 1 < R.min by omega, by omega⟩⟩
    · cases h
    · exact absurd v vu
  · rcases u.cases4 with ⟨b, rfl⟩ | rfl | rfl | v
    · cases h
    · cases h
    · exact ⟨⟨R.max + 1, R.max + 2, show R.max < R.max + 1 by omega, show R.max < R.max + 2 by omega, by omega⟩,
        ⟨R.max + 1, R.max + 1, show R.max < R.max + 1 by omega, show R.max < R.max + 1 by omega, by omega⟩⟩
    · exact absurd v vu
  · exact absurd v vt

/-- an indeterminate `==` leaves both answers possible -/
private theorem crEq_ind {R : ITy} {t u : CR} (ht : Proper R t) (hu : Proper R u) (h : crEq R t u = .ind) :
    (∃ x y, Describes R t x ∧ Describes R u y ∧ x = y) ∧ (∃ x y, Describes R t x ∧ Describes R u y ∧ x ≠ y) := by
  by_cases vt : Vague t
  · obtain ⟨y, hy⟩ := describes_ex hu
    exact ⟨⟨y, y, vague_all ht vt _, hy, rfl⟩, ⟨y + 1, y, vague_all ht vt _, hy, by omega⟩⟩
  by_cases vu : Vague u
  · obtain ⟨x, hx⟩ := describes_ex ht
    exact ⟨⟨x, x, hx, vague_all hu vu _, rfl⟩, ⟨x, x + 1, hx, vague_all hu vu _, by omega⟩⟩
  rcases t.cases4 with ⟨a, rfl⟩ | rfl | rfl | v
  · rcases u.cases4 with ⟨b, rfl⟩ | rfl | rfl | v
    · rw [crEq_ok ht hu] at h
      cases h' : decide (a = b) <;> rw [h'] at h <;> cases h
    · cases h
    · cases h
    · exact absurd v vu
  · rcases u.cases4 with ⟨b, rfl⟩ | rfl | rfl | v
    · cases h
    · exact ⟨⟨R.min - 1, R.min - 1, show R.min - 1 < R.min by omega, show R.min - 1 < R.min by omega, rfl⟩,
        ⟨R.min - 1, R.min - 2, show R.min - 1 < R.min by omega, show R.min - 2 < R.min by omega, by omega⟩⟩
    · cases h
    · exact absurd v vu
  · rcases u.cases4 with ⟨b, rfl⟩ | rfl | rfl | v
    · cases h
    · cases h
    · exact ⟨⟨R.max + 1, R.max + 1, show R.max < R.max + 1 by omega, show R.max < R.max + 1 by omega, rfl⟩,
        ⟨R.max + 1, R.max + 2, show R.max < R.max + 1 by omega, show R.max < R.max + 2 by omega, by omega⟩⟩
    · exact absurd v vu
  · exact absurd v vt

/-- `<` of checked results answers true (false) exactly when all numbers described by the operands are in that order
(in the other order); likewise `==`. So it is as informative as a sound comparison can be. -/
theorem C16_decisive (R : ITy) (t u : CR) (ht : Proper R t) (hu : Proper R u) :
    (crLt R t u = .tt ↔ ∀ x y, Describes R t x → Describes R u y → x < y) ∧
    (crLt R t u = .ff ↔ ∀ x y, Describes R t x → Describes R u y → ¬ x < y) ∧
    (crEq R t u = .tt ↔ ∀ x y, Describes R t x → Describes R u y → x = y) ∧
    (crEq R t u = .ff ↔ ∀ x y, Describes R t x → Describes R u y → x ≠ y) := by
  obtain ⟨x0, hx0⟩ := describes_ex ht
  obtain ⟨y0, hy0⟩ := describes_ex hu
  have sl := fun x y (hx : Describes R t x) (hy : Describes R u y) => crLt_sound (t := t) (u := u) hx hy
  have se := fun x y (hx : Describes R t x) (hy : Describes R u y) => crEq_sound (t := t) (u := u) hx hy
  refine ⟨⟨fun h x y hx hy => (sl x y hx hy).1 h, fun h => ?_⟩, ⟨fun h x y hx hy => (sl x y hx hy).2 h, fun h => ?_⟩,
    ⟨fun h x y hx hy => (se x y hx hy).1 h, fun h => ?_⟩, ⟨fun h x y hx hy => (se x y hx hy).2 h, fun h => ?_⟩⟩
  · rcases e : crLt R t u
    · rfl
    · exact absurd (h x0 y0 hx0 hy0) ((sl x0 y0 hx0 hy0).2 e)
    · obtain ⟨_, x, y, hx, hy, hxy⟩ := crLt_ind ht hu e
      have := h x y hx hy; omega
  · rcases e : crLt R t u
    · exact absurd ((sl x0 y0 hx0 hy0).1 e) (h x0 y0 hx0 hy0)
    · rfl
    · obtain ⟨⟨x, y, hx, hy, hxy⟩, _⟩ := crLt_ind ht hu e
      exact absurd hxy (h x y hx hy)
  · rcases e : crEq R t u
    · rfl
    · exact absurd (h x0 y0 hx0 hy0) ((se x0 y0 hx0 hy0).2 e)
    · obtain ⟨_, x, y, hx, hy, hxy⟩ := crEq_ind ht hu e
      exact absurd (h x y hx hy) hxy
  · rcases e : crEq R t u
    · exact absurd ((se x0 y0 hx0 hy0).1 e) (h x0 y0 hx0 hy0)
    · rfl
    · obtain ⟨⟨x, y, hx, hy, hxy⟩, _⟩ := crEq_ind ht hu e
      exact absurd hxy (h x y hx hy)

/-! ### C19 predicates of intervals of checked results -/

/-- `includes` and `excludes` of intervals of checked results: with `a..b` and `c..d` ranging over the numbers described
by the ends, the answer is true (false) exactly when the mathematical predicate is true (false) for all of them. -/
theorem C19_extended (R : ITy) (i j : Itv CR) (hi : Proper R i.l) (hi' : Proper R i.u) (hj : Proper R j.l)
    (hj' : Proper R j.u) :
    (i.includes (crCmp R) j = .tt ↔ ∀ a b c d, Describes R i.l a → Describes R i.u b → Describes R j.l c →
      Describes R j.u d → a ≤ c ∧ d ≤ b) ∧
    (i.includes (crCmp R) j = .ff ↔ ∀ a b c d, Describes R i.l a → Describes R i.u b → Describes R j.l c →
      Describes R j.u d → ¬ (a ≤ c ∧ d ≤ b)) ∧
    (i.excludes (crCmp R) j = .tt ↔ ∀ a b c d, Describes R i.l a → Describes R i.u b → Describes R j.l c →
      Describes R j.u d → d < a ∨ b < c) ∧
    (i.excludes (crCmp R) j = .ff ↔ ∀ a b c d, Describes R i.l a → Describes R i.u b → Describes R j.l c →
      Describes R j.u d → ¬ (d < a ∨ b < c)) := by
  obtain ⟨a0, ha0⟩ := describes_ex hi
  obtain ⟨b0, hb0⟩ := describes_ex hi'
  obtain ⟨c0, hc0⟩ := describes_ex hj
  obtain ⟨d0, hd0⟩ := describes_ex hj'
  obtain ⟨t1, f1, _⟩ := C16_decisive R i.u j.u hi' hj'
  obtain ⟨t2, f2, _⟩ := C16_decisive R j.l i.l hj hi
  obtain ⟨t3, f3, _⟩ := C16_decisive R j.u i.l hj' hi
  obtain ⟨t4, f4, _⟩ := C16_decisive R i.u j.l hi' hj
  have inc : i.includes (crCmp R) j = (crLt R i.u j.u).not.and (crLt R j.l i.l).not := rfl
  have exc : i.excludes (crCmp R) j = (crLt R j.u i.l).or (crLt R i.u j.l) := rfl
  have n1 : ∀ p q : T3, p.not.and q.not = .tt ↔ p = .ff ∧ q = .ff := by intro p q; cases p <;> cases q <;> simp [T3.not, T3.and]
  have n2 : ∀ p q : T3, p.not.and q.not = .ff ↔ p = .tt ∨ q = .tt := by intro p q; cases p <;> cases q <;> simp [T3.not, T3.and]
  have n3 : ∀ p q : T3, p.or q = .tt ↔ p = .tt ∨ q = .tt := by intro p q; cases p <;> cases q <;> simp [T3.or]
  have n4 : ∀ p q : T3, p.or q = .ff ↔ p = .ff ∧ q = .ff := by intro p q; cases p <;> cases q <;> simp [T3.or]
  refine ⟨?_, ?_, ?_, ?_⟩
  · rw [inc, n1, f1, f2]
    constructor
    · rintro ⟨h1, h2⟩ a b c d ha hb hc hd
      have := h1 b d hb hd; have := h2 c a hc ha; omega
    · intro h
      exact ⟨fun b d hb hd => by have := h a0 b c0 d ha0 hb hc0 hd; omega,
        fun c a hc ha => by have := h a b0 c d0 ha hb0 hc hd0; omega⟩
  · rw [inc, n2, t1, t2]
    constructor
    · rintro (h | h) a b c d ha hb hc hd
      · have := h b d hb hd; omega
      · have := h c a hc ha; omega
    · intro h
      by_cases g : ∀ b d, Describes R i.u b → Describes R j.u d → b < d
      · exact Or.inl g
      · right
        simp only [not_forall] at g
        obtain ⟨b, d, hb, hd, hbd⟩ := g
        intro c a hc ha
        have := h a b c d ha hb hc hd; omega
  · rw [exc, n3, t3, t4]
    constructor
    · rintro (h | h) a b c d ha hb hc hd
      · exact Or.inl (h d a hd ha)
      · exact Or.inr (h b c hb hc)
    · intro h
      by_cases g : ∀ d a, Describes R j.u d → Describes R i.l a → d < a
      · exact Or.inl g
      · right
        simp only [not_forall] at g
        obtain ⟨d, a, hd, ha, hda⟩ := g
        intro b c hb hc
        have := h a b c d ha hb hc hd; omega
  · rw [exc, n4, f3, f4]
    constructor
    · rintro ⟨h1, h2⟩ a b c d ha hb hc hd
      have := h1 d a hd ha; have := h2 b c hb hc; omega
    · intro h
      exact ⟨fun d a hd ha => by have := h a b0 c0 d ha hb0 hc0 hd; omega,
        fun b c hb hc => by have := h a0 b c d0 ha0 hb hc hd0; omega⟩

/-- Membership of a value in an interval of checked results, and the order of two such intervals. -/
theorem C19_extended_order (R : ITy) (i j : Itv CR) (hi : Proper R i.l) (hi' : Proper R i.u) (hj : Proper R j.l)
    (hj' : Proper R j.u) (x : Int) (hx : R.In x) :
    (i.includesPt (crCmp R) (.ok x) = .tt ↔ ∀ a b, Describes R i.l a → Describes R i.u b → a ≤ x ∧ x ≤ b) ∧
    (i.includesPt (crCmp R) (.ok x) = .ff ↔ ∀ a b, Describes R i.l a → Describes R i.u b → ¬ (a ≤ x ∧ x ≤ b)) ∧
    (i.excludesPt (crCmp R) (.ok x) = .tt ↔ ∀ a b, Describes R i.l a → Describes R i.u b → x < a ∨ b < x) ∧
    (i.excludesPt (crCmp R) (.ok x) = .ff ↔ ∀ a b, Describes R i.l a → Describes R i.u b → ¬ (x < a ∨ b < x)) ∧
    (i.lt (crCmp R) j = .tt ↔ ∀ b c, Describes R i.u b → Describes R j.l c → b < c) ∧
    (i.gt (crCmp R) j = .tt ↔ ∀ a d, Describes R i.l a → Describes R j.u d → d < a) := by
  have px : Proper R (.ok x) := hx
  obtain ⟨h1, h2, h3, h4⟩ := C19_extended R i ⟨.ok x, .ok x⟩ hi hi' px px
  have dx : ∀ y, Describes R (.ok x) y ↔ y = x := fun y => ⟨fun h => h.2, fun h => ⟨hx, h⟩⟩
  have e1 : i.includesPt (crCmp R) (.ok x) = i.includes (crCmp R) ⟨.ok x, .ok x⟩ := by
    show (crLt R (.ok x) i.l).not.and (crLt R i.u (.ok x)).not = (crLt R i.u (.ok x)).not.and (crLt R (.ok x) i.l).not
    cases crLt R (.ok x) i.l <;> cases crLt R i.u (.ok x) <;> rfl
  have e2 : i.excludesPt (crCmp R) (.ok x) = i.excludes (crCmp R) ⟨.ok x, .ok x⟩ := rfl
  have q : ∀ P : Int → Int → Int → Int → Prop,
      (∀ a b c d, Describes R i.l a → Describes R i.u b → Describes R (.ok x) c → Describes R (.ok x) d → P a b c d) ↔
      (∀ a b, Describes R i.l a → Describes R i.u b → P a b x x) := by
    intro P
    constructor
    · intro h a b ha hb; exact h a b x x ha hb ⟨hx, rfl⟩ ⟨hx, rfl⟩
    · intro h a b c d ha hb hc hd
      rw [(dx c).1 hc, (dx d).1 hd]; exact h a b ha hb
  obtain ⟨t1, _, _⟩ := C16_decisive R i.u j.l hi' hj
  obtain ⟨t2, _, _⟩ := C16_decisive R j.u i.l hj' hi
  refine ⟨by rw [e1, h1]; exact q _, by rw [e1, h2]; exact q _, by rw [e2, h3]; exact q _, by rw [e2, h4]; exact q _, ?_, ?_⟩
  · rw [← t1]
    show (if (crLt R i.u j.l).toBool then T3.tt else if (crLt R j.u i.l).toBool then .ff else .ind) = .tt ↔ _
    cases crLt R i.u j.l <;> cases crLt R j.u i.l <;> decide
  · have e3 : i.gt (crCmp R) j = .tt ↔ crLt R j.u i.l = .tt := by
      show (if (crLt R j.u i.l).toBool then T3.tt else if (crLt R i.u j.l).toBool then .ff else .ind) = .tt ↔ _
      cases crLt R i.u j.l <;> cases crLt R j.u i.l <;> decide
    rw [e3, t2]
    exact ⟨fun h a d ha hd => h d a hd ha, fun h d a hd ha => h a d ha hd⟩

end

section
attribute [local instance] lp64
-- `(-inf, 5]` does not include `[7, ?]` although the comparison of the lower ends is undecided
example : Proper i8 (.err .negative_overflow_error) ∧ Proper i8 (.err .domain_error) ∧
    (⟨.err .negative_overflow_error, .ok 5⟩ : Itv CR).includes (crCmp i8) ⟨.err .negative_overflow_error, .ok 7⟩ = .ff ∧
    (⟨.err .domain_error, .ok 5⟩ : Itv CR).excludes (crCmp i8) ⟨.ok 6, .ok 7⟩ = .tt := by decide +kernel
example : crLt i8 (.err .domain_error) (.ok 3) = .ind ∧ crEq i8 (.err .positive_overflow_error) (.ok 127) = .ff := by
  decide +kernel
end
end Verif.Props
