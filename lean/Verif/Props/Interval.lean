import Verif.Proofs.Interval

/-!
Properties C18 and C19: interval arithmetic over `checked_result` and the interval predicates.
-/

namespace Verif.Props
open Spec
section
variable [Arch]

/-! ### C18 interval arithmetic contains the pointwise results

C18 in full would be, for every operator: `Between R t.l t.u x → Between R u.l u.u y → ∃ i, t op u = .ret i ∧
Between R i.l i.u (x op y)` for intervals with proper ends (and `u` excluding zero for `/` and `%`). It is false
for the unchanged code (`C18_*_refuted`). The partial theorems require that a lower end is not a positive
overflow marker and an upper end not a negative one (`Sided`), and for `*` and `/` that upper ends are values or
overflow markers (`Definite`). `%` and the precondition of `/` and `%` are in `Interval2.lean`. -/

omit [Arch] in
private theorem definite_not_vague {c : CR} (h : Definite c) : ¬ Vague c := by
  rcases h with ⟨v, rfl⟩ | rfl | rfl
  · exact not_vague_ok v
  · exact not_vague_pos
  · exact not_vague_neg

/-- C18 for +. The lower ends may not be the marker for values above the type, nor the upper ends the marker for values below it; without that it is false (see the refutation). -/
theorem C18_add_partial (R : ITy) (t u : Itv CR) (x y : Int) (st : Sided R t.l t.u) (su : Sided R u.l u.u)
    (hx : Between R t.l t.u x) (hy : Between R u.l u.u y) :
    ∃ i, itvAdd R t u = .ret i ∧ Proper R i.l ∧ Proper R i.u ∧ Between R i.l i.u (x + y) := by
  obtain ⟨i, e, h1, h2, h3, h4⟩ := itvAdd_contains st.1 st.2.1 su.1 su.2.1 st.2.2.1 st.2.2.2 su.2.2.1 su.2.2.2
    hx.1 hx.2 hy.1 hy.2
  exact ⟨i, e, h1, h2, h3, h4⟩

/-- C18 for -, under the same condition on the ends as for +. -/
theorem C18_sub_partial (R : ITy) (t u : Itv CR) (x y : Int) (st : Sided R t.l t.u) (su : Sided R u.l u.u)
    (hx : Between R t.l t.u x) (hy : Between R u.l u.u y) :
    ∃ i, itvSub R t u = .ret i ∧ Proper R i.l ∧ Proper R i.u ∧ Between R i.l i.u (x - y) := by
  obtain ⟨i, e, h1, h2, h3, h4⟩ := itvSub_contains st.1 st.2.1 su.1 su.2.1 st.2.2.1 st.2.2.2 su.2.2.1 su.2.2.2
    hx.1 hx.2 hy.1 hy.2
  exact ⟨i, e, h1, h2, h3, h4⟩

/-- C18 for *: as for +, and the upper ends are values or overflow markers, not other errors. -/
theorem C18_mul_partial (R : ITy) (hR : R.Ok) (t u : Itv CR) (x y : Int) (st : Sided R t.l t.u)
    (su : Sided R u.l u.u) (dt : Definite t.u) (du : Definite u.u)
    (hx : Between R t.l t.u x) (hy : Between R u.l u.u y) :
    ∃ i, itvMul R t u = .ret i ∧ Proper R i.l ∧ Proper R i.u ∧ Between R i.l i.u (x * y) := by
  obtain ⟨i, e, h1, h2, h3, h4⟩ := itvMul_contains hR st.1 st.2.1 su.1 su.2.1 st.2.2.1 st.2.2.2
    (definite_not_vague dt) su.2.2.1 su.2.2.2 (definite_not_vague du) hx.1 hx.2 hy.1 hy.2
  exact ⟨i, e, h1, h2, h3, h4⟩

/-- C18 for /: as for *, and the divisor interval excludes 0 for sure (otherwise the code does not divide). -/
theorem C18_div_partial (R : ITy) (t u : Itv CR) (x y : Int) (st : Sided R t.l t.u)
    (su : Sided R u.l u.u) (dt : Definite t.u) (du : Definite u.u)
    (h0 : u.excludesPt (crCmp R) (.ok 0) = .tt)
    (hx : Between R t.l t.u x) (hy : Between R u.l u.u y) :
    ∃ i, itvDiv R t u = .ret i ∧ Proper R i.l ∧ Proper R i.u ∧ Between R i.l i.u (x.tdiv y) := by
  obtain ⟨i, e, h1, h2, h3, h4⟩ := itvDiv_contains st.1 st.2.1 su.1 su.2.1 st.2.2.1 st.2.2.2
    (definite_not_vague dt) su.2.2.1 su.2.2.2 (definite_not_vague du) (by rw [h0]; rfl) hx.1 hx.2 hy.1 hy.2
  exact ⟨i, e, h1, h2, h3, h4⟩

/-- Intervals whose four ends are all ordinary values, the common case: all four operators contain the pointwise
results. -/
theorem C18_values_partial (R : ITy) (hR : R.Ok) (a b c d x y : Int) (ha : R.In a) (hb : R.In b) (hc : R.In c)
    (hd : R.In d) (hx : a ≤ x ∧ x ≤ b) (hy : c ≤ y ∧ y ≤ d) :
    (∃ l u, itvAdd R ⟨.ok a, .ok b⟩ ⟨.ok c, .ok d⟩ = .ret ⟨l, u⟩ ∧ Between R l u (x + y)) ∧
    (∃ l u, itvSub R ⟨.ok a, .ok b⟩ ⟨.ok c, .ok d⟩ = .ret ⟨l, u⟩ ∧ Between R l u (x - y)) ∧
    (∃ l u, itvMul R ⟨.ok a, .ok b⟩ ⟨.ok c, .ok d⟩ = .ret ⟨l, u⟩ ∧ Between R l u (x * y)) ∧
    (0 < c ∨ d < 0 → ∃ l u, itvDiv R ⟨.ok a, .ok b⟩ ⟨.ok c, .ok d⟩ = .ret ⟨l, u⟩ ∧ Between R l u (x.tdiv y)) := by
  have st : Sided R (.ok a) (.ok b) := ⟨ha, hb, by simp, by simp⟩
  have su : Sided R (.ok c) (.ok d) := ⟨hc, hd, by simp, by simp⟩
  have df : ∀ v, Definite (.ok v) := fun v => Or.inl ⟨v, rfl⟩
  refine ⟨?_, ?_, ?_, ?_⟩
  · obtain ⟨i, e, _, _, h⟩ := C18_add_partial R ⟨.ok a, .ok b⟩ ⟨.ok c, .ok d⟩ x y st su hx hy
    exact ⟨_, _, e, h⟩
  · obtain ⟨i, e, _, _, h⟩ := C18_sub_partial R ⟨.ok a, .ok b⟩ ⟨.ok c, .ok d⟩ x y st su hx hy
    exact ⟨_, _, e, h⟩
  · obtain ⟨i, e, _, _, h⟩ := C18_mul_partial R hR ⟨.ok a, .ok b⟩ ⟨.ok c, .ok d⟩ x y st su (df _) (df _) hx hy
    exact ⟨_, _, e, h⟩
  · intro h0
    have hcd : c ≤ d := by omega
    have e0 : (⟨.ok c, .ok d⟩ : Itv CR).excludesPt (crCmp R) (.ok 0) = .tt := by
      show (crLt R (.ok 0) (.ok c)).or (crLt R (.ok d) (.ok 0)) = .tt
      rw [crLt_ok R.in_zero hc, crLt_ok hd R.in_zero]
      rcases h0 with h | h
      · rw [decide_eq_true h]; rfl
      · rw [decide_eq_true h]; cases decide (0 < c) <;> rfl
    obtain ⟨i, e, _, _, h⟩ := C18_div_partial R ⟨.ok a, .ok b⟩ ⟨.ok c, .ok d⟩ x y st su (df _) (df _) e0 hx hy
    exact ⟨_, _, e, h⟩
end

section
attribute [local instance] lp64

/-- the hypotheses are satisfiable by a case that crosses zero and overflows one end:
`[-3, +inf) * [-100, 2]` in `int8_t` with `x = 5`, `y = -7` -/
example : Sided i8 (.ok (-3)) (.err .positive_overflow_error) ∧ Sided i8 (.ok (-100)) (.ok 2) ∧
    Between i8 (.ok (-3)) (.err .positive_overflow_error) 5 ∧ Between i8 (.ok (-100)) (.ok 2) (-7) ∧
    itvMul i8 ⟨.ok (-3), .err .positive_overflow_error⟩ ⟨.ok (-100), .ok 2⟩ =
      .ret ⟨.err .negative_overflow_error, .err .positive_overflow_error⟩ := by decide

example : itvDiv i8 ⟨.ok (-100), .ok 77⟩ ⟨.ok (-5), .ok (-2)⟩ = .ret ⟨.ok (-38), .ok 50⟩ := by decide

/-- The remainder of a point of `[0, 10]` by 5 is not in the computed interval `[0, 0]`. -/
theorem C18_mod_refuted : ∃ (t u : Itv CR) (x y : Int),
    Between i32 t.l t.u x ∧ Between i32 u.l u.u y ∧ u.excludesPt (crCmp i32) (.ok 0) = .tt ∧
    ∃ i, itvMod i32 t u = .ret i ∧ ¬ Between i32 i.l i.u (x.tmod y) :=
  ⟨⟨.ok 0, .ok 10⟩, ⟨.ok 5, .ok 5⟩, 7, 5, by decide, by decide, by decide, ⟨.ok 0, .ok 0⟩, by decide, by decide⟩

/-- A lower end above the range absorbs a negative summand: `[-100, -100] + (127, ...)` claims to be above 127. -/
theorem C18_add_refuted : ∃ (t u : Itv CR) (x y : Int),
    Proper i8 t.l ∧ Proper i8 t.u ∧ Proper i8 u.l ∧ Proper i8 u.u ∧ Between i8 t.l t.u x ∧ Between i8 u.l u.u y ∧
    ∃ i, itvAdd i8 t u = .ret i ∧ ¬ Between i8 i.l i.u (x + y) :=
  ⟨⟨.ok (-100), .ok (-100)⟩, ⟨.err .positive_overflow_error, .err .positive_overflow_error⟩, -100, 128,
    by decide, by decide, by decide, by decide, by decide, by decide,
    ⟨.err .positive_overflow_error, .err .positive_overflow_error⟩, by decide, by decide⟩

/-- The full C18 fails for -: with [positive overflow, positive overflow] minus [100, 100] the value 128 - 100 = 28 is not in the resulting interval. -/
theorem C18_sub_refuted : ∃ (t u : Itv CR) (x y : Int),
    Proper i8 t.l ∧ Proper i8 t.u ∧ Proper i8 u.l ∧ Proper i8 u.u ∧ Between i8 t.l t.u x ∧ Between i8 u.l u.u y ∧
    ∃ i, itvSub i8 t u = .ret i ∧ ¬ Between i8 i.l i.u (x - y) :=
  ⟨⟨.err .positive_overflow_error, .err .positive_overflow_error⟩, ⟨.ok 100, .ok 100⟩, 128, 100,
    by decide, by decide, by decide, by decide, by decide, by decide,
    ⟨.err .positive_overflow_error, .err .positive_overflow_error⟩, by decide, by decide⟩

/-- An upper end that is an error other than overflow is dropped: `[1, ?] * [1, 1]` becomes `[1, 1]`. -/
theorem C18_mul_refuted : ∃ (t u : Itv CR) (x y : Int),
    Proper i8 t.l ∧ Proper i8 t.u ∧ Proper i8 u.l ∧ Proper i8 u.u ∧ Between i8 t.l t.u x ∧ Between i8 u.l u.u y ∧
    ∃ i, itvMul i8 t u = .ret i ∧ ¬ Between i8 i.l i.u (x * y) :=
  ⟨⟨.ok 1, .err .range_error⟩, ⟨.ok 1, .ok 1⟩, 5, 1,
    by decide, by decide, by decide, by decide, by decide, by decide,
    ⟨.ok 1, .ok 1⟩, by decide, by decide⟩

/-- The quotient of a value by a range beyond the maximum is claimed to be 0, though `-128 / 128` is `-1`. -/
theorem C18_div_refuted : ∃ (t u : Itv CR) (x y : Int),
    Proper i8 t.l ∧ Proper i8 t.u ∧ Proper i8 u.l ∧ Proper i8 u.u ∧ Between i8 t.l t.u x ∧ Between i8 u.l u.u y ∧
    u.excludesPt (crCmp i8) (.ok 0) = .tt ∧
    ∃ i, itvDiv i8 t u = .ret i ∧ ¬ Between i8 i.l i.u (x.tdiv y) :=
  ⟨⟨.ok (-128), .ok (-128)⟩, ⟨.err .positive_overflow_error, .err .positive_overflow_error⟩, -128, 128,
    by decide, by decide, by decide, by decide, by decide, by decide, by decide,
    ⟨.ok 0, .ok 0⟩, by decide, by decide⟩

end

/-! ### C19 interval predicates on integers -/

section
variable [A : Arch]

private theorem ilt {T : ITy} {a b : Int} (ha : T.In a) (hb : T.In b) :
    T3.ofBool (cLt T T a b) = T3.ofBool (decide (a < b)) := by
  rw [cLt_eq (in_uac_self ha) (in_uac_self hb)]
private theorem igt {T : ITy} {a b : Int} (ha : T.In a) (hb : T.In b) :
    T3.ofBool (cGt T T a b) = T3.ofBool (decide (b < a)) := by
  rw [cGt_eq (in_uac_self ha) (in_uac_self hb)]
private theorem ile {T : ITy} {a b : Int} (ha : T.In a) (hb : T.In b) :
    T3.ofBool (cLe T T a b) = T3.ofBool (decide (a ≤ b)) := by
  rw [cLe_eq (in_uac_self ha) (in_uac_self hb)]
private theorem ige {T : ITy} {a b : Int} (ha : T.In a) (hb : T.In b) :
    T3.ofBool (cGe T T a b) = T3.ofBool (decide (b ≤ a)) := by
  rw [cGe_eq (in_uac_self ha) (in_uac_self hb)]
private theorem ieq {T : ITy} {a b : Int} (ha : T.In a) (hb : T.In b) :
    T3.ofBool (cEq T T a b) = T3.ofBool (decide (a = b)) := by
  rw [cEq_eq (in_uac_self ha) (in_uac_self hb)]

omit A in
private theorem and_b (a b : Bool) : (T3.ofBool a).and (T3.ofBool b) = T3.ofBool (a && b) := by
  cases a <;> cases b <;> rfl
omit A in
private theorem or_b (a b : Bool) : (T3.ofBool a).or (T3.ofBool b) = T3.ofBool (a || b) := by
  cases a <;> cases b <;> rfl
omit A in
private theorem b_tt (p : Prop) [Decidable p] : T3.ofBool (decide p) = .tt ↔ p := by
  by_cases h : p <;> simp [h, T3.ofBool]
omit A in
private theorem b_ff (p : Prop) [Decidable p] : T3.ofBool (decide p) = .ff ↔ ¬ p := by
  by_cases h : p <;> simp [h, T3.ofBool]
omit A in
private theorem toBool_b (b : Bool) : (T3.ofBool b).toBool = b := by cases b <;> rfl

/-- Membership and exclusion of a point, inclusion and exclusion of an interval, decided exactly. -/
theorem C19_membership (T : ITy) (i j : Itv Int) (x : Int) (il : T.In i.l) (iu : T.In i.u) (jl : T.In j.l)
    (ju : T.In j.u) (hx : T.In x) (hi : i.l ≤ i.u) (hj : j.l ≤ j.u) :
    (i.includesPt (intCmp T) x = .tt ↔ (i.l ≤ x ∧ x ≤ i.u)) ∧
    (i.includesPt (intCmp T) x = .ff ↔ ¬ (i.l ≤ x ∧ x ≤ i.u)) ∧
    (i.excludesPt (intCmp T) x = .tt ↔ ¬ (i.l ≤ x ∧ x ≤ i.u)) ∧
    (i.excludesPt (intCmp T) x = .ff ↔ (i.l ≤ x ∧ x ≤ i.u)) ∧
    (i.includes (intCmp T) j = .tt ↔ ∀ z, j.l ≤ z ∧ z ≤ j.u → i.l ≤ z ∧ z ≤ i.u) ∧
    (i.includes (intCmp T) j = .ff ↔ ∃ z, (j.l ≤ z ∧ z ≤ j.u) ∧ ¬ (i.l ≤ z ∧ z ≤ i.u)) ∧
    (i.excludes (intCmp T) j = .tt ↔ ∀ z, j.l ≤ z ∧ z ≤ j.u → ¬ (i.l ≤ z ∧ z ≤ i.u)) ∧
    (i.excludes (intCmp T) j = .ff ↔ ∃ z, (j.l ≤ z ∧ z ≤ j.u) ∧ (i.l ≤ z ∧ z ≤ i.u)) := by
  have e1 : i.includesPt (intCmp T) x = T3.ofBool (decide (i.l ≤ x ∧ x ≤ i.u)) := by
    show (T3.ofBool (cLe T T i.l x)).and (T3.ofBool (cLe T T x i.u)) = _
    rw [ile il hx, ile hx iu, and_b, Bool.decide_and]
  have e2 : i.excludesPt (intCmp T) x = T3.ofBool (decide (¬ (i.l ≤ x ∧ x ≤ i.u))) := by
    show (T3.ofBool (cLt T T x i.l)).or (T3.ofBool (cGt T T x i.u)) = _
    rw [ilt hx il, igt hx iu, or_b, ← Bool.decide_or]
    congr 1; exact decide_eq_decide.2 (by omega)
  have e3 : i.includes (intCmp T) j = T3.ofBool (decide (i.l ≤ j.l ∧ j.u ≤ i.u)) := by
    show (T3.ofBool (cGe T T i.u j.u)).and (T3.ofBool (cLe T T i.l j.l)) = _
    rw [ige iu ju, ile il jl, and_b, ← Bool.decide_and]
    congr 1; exact decide_eq_decide.2 (by omega)
  have e4 : i.excludes (intCmp T) j = T3.ofBool (decide (j.u < i.l ∨ i.u < j.l)) := by
    show (T3.ofBool (cLt T T j.u i.l)).or (T3.ofBool (cLt T T i.u j.l)) = _
    rw [ilt ju il, ilt iu jl, or_b, ← Bool.decide_or]
  rw [e1, e2, e3, e4, b_tt, b_ff, b_tt, b_ff, b_tt, b_ff, b_tt, b_ff]
  refine ⟨Iff.rfl, Iff.rfl, Iff.rfl, Decidable.not_not, ?_, ?_, ?_, ?_⟩
  · exact ⟨fun h z hz => by omega, fun h => ⟨(h j.l (by omega)).1, (h j.u (by omega)).2⟩⟩
  · constructor
    · intro h
      by_cases g : i.l ≤ j.l
      · exact ⟨j.u, by omega, by omega⟩
      · exact ⟨j.l, by omega, by omega⟩
    · rintro ⟨z, h1, h2⟩; omega
  · constructor
    · intro h z hz; omega
    · intro h
      have := h j.l (by omega); have := h j.u (by omega); have := h i.l; omega
  · constructor
    · intro h
      by_cases g : i.l ≤ j.l
      · exact ⟨j.l, by omega, by omega⟩
      · exact ⟨i.l, by omega, by omega⟩
    · rintro ⟨z, h1, h2⟩; omega

/-- Order of intervals: true only if all elements are so ordered, false only if all are ordered the other way, and
undecided exactly when the intervals share a value. -/
theorem C19_order (T : ITy) (i j : Itv Int) (il : T.In i.l) (iu : T.In i.u) (jl : T.In j.l)
    (ju : T.In j.u) (hi : i.l ≤ i.u) (hj : j.l ≤ j.u) :
    (i.lt (intCmp T) j = .tt ↔ ∀ x y, i.l ≤ x ∧ x ≤ i.u → j.l ≤ y ∧ y ≤ j.u → x < y) ∧
    (i.lt (intCmp T) j = .ff ↔ ∀ x y, i.l ≤ x ∧ x ≤ i.u → j.l ≤ y ∧ y ≤ j.u → y < x) ∧
    (i.gt (intCmp T) j = .tt ↔ ∀ x y, i.l ≤ x ∧ x ≤ i.u → j.l ≤ y ∧ y ≤ j.u → y < x) ∧
    (i.gt (intCmp T) j = .ff ↔ ∀ x y, i.l ≤ x ∧ x ≤ i.u → j.l ≤ y ∧ y ≤ j.u → x < y) ∧
    (i.lt (intCmp T) j = .ind ↔ ∃ x, (i.l ≤ x ∧ x ≤ i.u) ∧ (j.l ≤ x ∧ x ≤ j.u)) ∧
    i.le (intCmp T) j = (i.gt (intCmp T) j).not ∧ i.ge (intCmp T) j = (i.lt (intCmp T) j).not ∧
    (i.eq (intCmp T) j = true ↔ ∀ x, (i.l ≤ x ∧ x ≤ i.u) ↔ (j.l ≤ x ∧ x ≤ j.u)) ∧
    i.ne (intCmp T) j = !(i.eq (intCmp T) j) := by
  have a1 : ((intCmp T).lt i.u j.l).toBool = decide (i.u < j.l) := by
    show (T3.ofBool (cLt T T i.u j.l)).toBool = _
    rw [ilt iu jl, toBool_b]
  have a2 : ((intCmp T).gt i.l j.u).toBool = decide (j.u < i.l) := by
    show (T3.ofBool (cGt T T i.l j.u)).toBool = _
    rw [igt il ju, toBool_b]
  have a3 : i.eq (intCmp T) j = decide (i.l = j.l ∧ i.u = j.u) := by
    show ((T3.ofBool (cEq T T i.l j.l)).and (T3.ofBool (cEq T T i.u j.u))).toBool = _
    rw [ieq il jl, ieq iu ju, and_b, toBool_b, Bool.decide_and]
  have f1 : (i.u < j.l) ↔ ∀ x y, i.l ≤ x ∧ x ≤ i.u → j.l ≤ y ∧ y ≤ j.u → x < y :=
    ⟨fun h x y _ _ => by omega, fun h => h i.u j.l (by omega) (by omega)⟩
  have f2 : (j.u < i.l) ↔ ∀ x y, i.l ≤ x ∧ x ≤ i.u → j.l ≤ y ∧ y ≤ j.u → y < x :=
    ⟨fun h x y _ _ => by omega, fun h => h i.l j.u (by omega) (by omega)⟩
  have f3 : (¬ (i.u < j.l) ∧ ¬ (j.u < i.l)) ↔ ∃ x, (i.l ≤ x ∧ x ≤ i.u) ∧ (j.l ≤ x ∧ x ≤ j.u) := by
    constructor
    · intro h
      by_cases g : i.l ≤ j.l
      · exact ⟨j.l, by omega, by omega⟩
      · exact ⟨i.l, by omega, by omega⟩
    · rintro ⟨z, h1, h2⟩; omega
  rw [← f1, ← f2, ← f3, a3, decide_eq_true_iff]
  unfold Itv.lt Itv.gt
  rw [a1, a2]
  refine ⟨?_, ?_, ?_, ?_, ?_, ?_, ?_, ?_, ?_⟩
  · by_cases h : i.u < j.l <;> by_cases g : j.u < i.l <;> simp [h, g]
  · by_cases h : i.u < j.l <;> by_cases g : j.u < i.l <;> simp [h, g]; omega
  · by_cases h : i.u < j.l <;> by_cases g : j.u < i.l <;> simp [h, g]
  · by_cases h : i.u < j.l <;> by_cases g : j.u < i.l <;> simp [h, g]; omega
  · by_cases h : i.u < j.l <;> by_cases g : j.u < i.l <;> simp [h, g]
  · unfold Itv.le Itv.gt; rw [a1, a2]
  · unfold Itv.ge Itv.lt; rw [a1, a2]
  · constructor
    · rintro ⟨h1, h2⟩ x; rw [h1, h2]
    · intro h
      have := (h i.l).1 (by omega); have := (h i.u).1 (by omega)
      have := (h j.l).2 (by omega); have := (h j.u).2 (by omega); omega
  · unfold Itv.ne; rw [a3]

/-- `|` is the smallest interval that contains both, `&` is the set intersection. -/
theorem C19_union_intersection (T : ITy) (i j : Itv Int) (il : T.In i.l) (iu : T.In i.u) (jl : T.In j.l)
    (ju : T.In j.u) (x : Int) :
    ((i.union (intCmp T) j).l ≤ i.l ∧ (i.union (intCmp T) j).l ≤ j.l ∧
      i.u ≤ (i.union (intCmp T) j).u ∧ j.u ≤ (i.union (intCmp T) j).u) ∧
    (∀ k : Itv Int, k.l ≤ i.l → k.l ≤ j.l → i.u ≤ k.u → j.u ≤ k.u →
      k.l ≤ (i.union (intCmp T) j).l ∧ (i.union (intCmp T) j).u ≤ k.u) ∧
    (((i.inter (intCmp T) j).l ≤ x ∧ x ≤ (i.inter (intCmp T) j).u) ↔
      (i.l ≤ x ∧ x ≤ i.u) ∧ (j.l ≤ x ∧ x ≤ j.u)) := by
  have c : ∀ {a b : Int}, T.In a → T.In b → ((intCmp T).lt a b).toBool = decide (a < b) := by
    intro a b ha hb
    show (T3.ofBool (cLt T T a b)).toBool = _
    rw [ilt ha hb, toBool_b]
  unfold Itv.union Itv.inter Itv.stdMin Itv.stdMax
  rw [c jl il, c iu ju, c il jl, c ju iu]
  simp only [decide_eq_true_eq]
  refine ⟨?_, ?_, ?_⟩
  · split_ifs <;> omega
  · intro k h1 h2 h3 h4; split_ifs <;> omega
  · split_ifs <;> omega

/-- `intersect` says true whenever the intervals meet. -/
theorem C19_intersect_partial (T : ITy) (i j : Itv Int) (iu : T.In i.u) (jl : T.In j.l)
    (h : ∃ x, (i.l ≤ x ∧ x ≤ i.u) ∧ (j.l ≤ x ∧ x ≤ j.u)) :
    i.intersect (intCmp T) j = .tt := by
  obtain ⟨x, h1, h2⟩ := h
  show (T3.ofBool (cGe T T i.u j.l)).or (T3.ofBool (cLe T T i.l j.u)) = _
  rw [ige iu jl, decide_eq_true (by omega)]; cases T3.ofBool (cLe T T i.l j.u) <;> rfl

/-- `intersect` is true for *every* two nonempty intervals, so it can never report that they do not meet: the code
joins the two conditions by `||` where `&&` is needed. -/
theorem C19_intersect_constant (T : ITy) (i j : Itv Int) (il : T.In i.l) (iu : T.In i.u) (jl : T.In j.l)
    (ju : T.In j.u) (hi : i.l ≤ i.u) (hj : j.l ≤ j.u) : i.intersect (intCmp T) j = .tt := by
  show (T3.ofBool (cGe T T i.u j.l)).or (T3.ofBool (cLe T T i.l j.u)) = _
  rw [ige iu jl, ile il ju, or_b, ← Bool.decide_or, b_tt]; omega
end

section
attribute [local instance] lp64

/-- The full C19 fails: `intersect` says that [0, 1] and [5, 6] have a common value. -/
theorem C19_intersect_refuted : ∃ i j : Itv Int, i.l ≤ i.u ∧ j.l ≤ j.u ∧ i.intersect (intCmp i32) j = .tt ∧
    ¬ ∃ x, (i.l ≤ x ∧ x ≤ i.u) ∧ (j.l ≤ x ∧ x ≤ j.u) :=
  ⟨⟨0, 1⟩, ⟨5, 6⟩, by decide, by decide, by decide, by rintro ⟨x, h1, h2⟩; simp at h1 h2; omega⟩

/-- the hypotheses of the C19 theorems hold for overlapping `int8_t` intervals -/
example : i8.In (-128) ∧ i8.In 100 ∧ (⟨-128, 5⟩ : Itv Int).lt (intCmp i8) ⟨3, 100⟩ = .ind ∧
    (⟨-128, 5⟩ : Itv Int).includes (intCmp i8) ⟨-3, 5⟩ = .tt ∧
    (⟨-128, 5⟩ : Itv Int).inter (intCmp i8) ⟨3, 100⟩ = ⟨3, 5⟩ := by decide
end
end Verif.Props
