import Verif.Props.Safe2

/-!
Property C94: the comparison operators order the values of a safe type. Containers and algorithms of the C++ standard library
(`std::map`, `std::sort`, ...) require a strict weak ordering; with operands of several types the answers never contradict each
other, but a comparison may throw.
-/

namespace Verif.Spec

/-- On the values in `S` the function `lt` always answers, and `lt` and `eq` describe a strict total order: no value is less than
itself, `lt` is transitive, and for two values exactly one of `a < b`, `a == b`, `b < a` is true. -/
structure StrictTotal (S : Int → Prop) (lt eq : Int → Int → Out Bool) : Prop where
  answers : ∀ a b, S a → S b → (∃ x, lt a b = .ret x) ∧ ∃ x, eq a b = .ret x
  irrefl : ∀ a, S a → lt a a = .ret false
  trans : ∀ a b c, S a → S b → S c → lt a b = .ret true → lt b c = .ret true → lt a c = .ret true
  one : ∀ a b, S a → S b →
    (lt a b = .ret true ∧ eq a b = .ret false ∧ lt b a = .ret false) ∨
    (lt a b = .ret false ∧ eq a b = .ret true ∧ lt b a = .ret false) ∨
    (lt a b = .ret false ∧ eq a b = .ret false ∧ lt b a = .ret true)

end Verif.Spec

namespace Verif.Props
open Spec

section
variable [Arch]

/-- the type in which two values of the type `T` are compared holds all of them -/
private theorem runLt_any {p : EP} {R : ITy} {T U : Opd} {t u : Int} (hT : T.Wf) (hU : U.Wf) (ht : T.Has t) (hu : U.Has u)
    (h1 : R.In T.lo ∧ R.In T.hi) (h2 : R.In U.lo ∧ R.In U.hi) : runLt p R T U t u = .ret (decide (t < u)) := by
  unfold runLt
  rw [castItv_eq hT, castItv_eq hU]
  simp only [Out.ret_bind]
  rw [castStatics hT hU]
  change (if cmpOpen R T U = true then _ else _) = _
  rw [cmpOpen_of_in h1.1 h1.2 h2.1 h2.2, if_neg (by simp)]
  have i1 := in_between h1 ht; have i2 := in_between h2 hu
  split_ifs with a b
  · rw [decide_eq_true (itvLt_tt ht hu a)]
  · rw [decide_eq_false (by have := itvGt_tt ht hu b; omega)]
  · rw [conv_of_in i1, conv_of_in i2, cLt_eq (in_uac_self i1) (in_uac_self i2)]

private theorem runEq_any {p : EP} {R : ITy} {T U : Opd} {t u : Int} (hT : T.Wf) (hU : U.Wf) (ht : T.Has t) (hu : U.Has u)
    (h1 : R.In T.lo ∧ R.In T.hi) (h2 : R.In U.lo ∧ R.In U.hi) : runEq p R T U t u = .ret (decide (t = u)) := by
  unfold runEq
  rw [castItv_eq hT, castItv_eq hU]
  simp only [Out.ret_bind]
  rw [castStatics hT hU, intersect_not hT.2.2.2.1 hU.2.2.2.1]
  change (if cmpOpen R T U = true then _ else _) = _
  rw [cmpOpen_of_in h1.1 h1.2 h2.1 h2.2, if_neg (by simp)]
  have i1 := in_between h1 ht; have i2 := in_between h2 hu
  rw [conv_of_in i1, conv_of_in i2, cEq_eq (in_uac_self i1) (in_uac_self i2)]; simp

private theorem same {pp : PP} {p : EP} {R : ITy} {T : Opd} (hT : T.Wf) (e : pp.result .cmp T T = .ret R)
    (h : R.In T.lo ∧ R.In T.hi) (o : Rel) {t u : Int} (ht : T.Has t) (hu : T.Has u) :
    compare pp p o T T t u = .ret (rel o t u) := by
  have l1 := runLt_any (p := p) hT hT ht hu h h
  have l2 := runLt_any (p := p) hT hT hu ht h h
  have q := runEq_any (p := p) hT hT ht hu h h
  unfold compare
  cases o <;> dsimp only [rel, runGt, runGe, runLe, runNe] <;> rw [e, Out.ret_bind]
  · exact l1
  · exact l2
  · rw [l2, Out.ret_bind]; by_cases g : t ≤ u <;> simp [g]; omega
  · rw [l1, Out.ret_bind]; by_cases g : u ≤ t <;> simp [g]; omega
  · exact q
  · rw [q]; simp

omit [Arch] in
private theorem cppResult_self {m : CppCfg} (hm : CppOrdered m) {T : ITy} :
    ∃ R, cppResult m T T = .ret R ∧ R.signed = T.signed ∧ T.lg ≤ R.lg := by
  refine ⟨cppPromote m T, by simp [cppResult, cppUac], rfl, ?_⟩
  obtain ⟨h1, h2, h3, h4⟩ := hm
  simp only [cppPromote, copySign, higherRanked]
  split
  · exact le_refl _
  · rename_i g
    show T.lg ≤ m.i
    simp only [cppRank] at g
    split_ifs at g <;> omega

/-- The promotion policies for which the theorem below holds: native, automatic, and `cpp` with widths that do not decrease from `char` to
`long long`, as the C++ standard requires of an implementation. -/
private theorem result_self (pp : PP) (hm : ∀ m, pp = .cpp m → CppOrdered m) {T : Opd} (hT : T.Wf) :
    ∃ R, pp.result .cmp T T = .ret R ∧ R.In T.lo ∧ R.In T.hi := by
  cases pp with
  | native =>
    refine ⟨uac T.base T.base, rfl, ?_, ?_⟩ <;> rw [uac_self]
    · exact in_promote hT.2.1
    · exact in_promote hT.2.2.1
  | automatic =>
    have k : (autoTemp T T).In T.lo ∧ (autoTemp T T).In T.hi := by
      unfold autoTemp
      split
      · rename_i g
        exact ⟨hT.2.1.widen (by rw [g.1]; rfl) hT.1, hT.2.2.1.widen (by rw [g.1]; rfl) hT.1⟩
      · rename_i g
        have g : T.base.signed = true := by cases h : T.base.signed <;> simp_all
        exact ⟨hT.2.1.widen (by rw [g]; rfl) hT.1, hT.2.2.1.widen (by rw [g]; rfl) hT.1⟩
    obtain ⟨R, e, h, _⟩ := autoCmp_in hT hT k k
    exact ⟨R, e, h⟩
  | cpp m =>
    obtain ⟨R, e, s, l⟩ := cppResult_self (hm m rfl) (T := T.base)
    exact ⟨R, e, hT.2.1.widen s.symm l, hT.2.2.1.widen s.symm l⟩

/-- Two values of one type: every comparison has the answer of the integers, at compile time and at run time, with every exception
policy (also one that ignores errors), and with every promotion policy; the widths of `cpp` must not decrease from `char` to
`long long`. -/
theorem C94_same (pp : PP) (hm : ∀ m, pp = .cpp m → CppOrdered m) (p : EP) (o : Rel) (T : Opd) (hT : T.Wf) (t u : Int)
    (ht : T.Has t) (hu : T.Has u) : compare pp p o T T t u = .ret (rel o t u) := by
  obtain ⟨R, e, h⟩ := result_self pp hm hT
  exact same hT e h o ht hu

/-- Hence `<` and `==` are a strict total order on the values of each safe type. -/
theorem C94_strict_total (pp : PP) (hm : ∀ m, pp = .cpp m → CppOrdered m) (p : EP) (T : Opd) (hT : T.Wf) :
    StrictTotal T.Has (compare pp p .lt T T) (compare pp p .eq T T) := by
  have lt := fun t u ht hu => C94_same pp hm p .lt T hT t u ht hu
  have eq := fun t u ht hu => C94_same pp hm p .eq T hT t u ht hu
  refine ⟨?_, ?_, ?_, ?_⟩
  · exact fun a b ha hb => ⟨⟨_, lt a b ha hb⟩, ⟨_, eq a b ha hb⟩⟩
  · intro a ha; rw [lt a a ha ha]; simp [rel]
  · intro a b c ha hb hc h1 h2
    rw [lt a b ha hb] at h1; rw [lt b c hb hc] at h2; rw [lt a c ha hc]
    simp [rel] at *; omega
  · intro a b ha hb
    rw [lt a b ha hb, lt b a hb ha, eq a b ha hb]
    simp only [rel, Out.ret.injEq, decide_eq_true_eq, decide_eq_false_iff_not]
    omega

/-- Sorting is possible: the comparisons `>`, `<=`, `>=`, `!=` of one type say what `<` and `==` say. -/
theorem C94_agree (pp : PP) (hm : ∀ m, pp = .cpp m → CppOrdered m) (p : EP) (T : Opd) (hT : T.Wf) (t u : Int)
    (ht : T.Has t) (hu : T.Has u) :
    compare pp p .gt T T t u = compare pp p .lt T T u t ∧
    (compare pp p .le T T t u = .ret true ↔ compare pp p .lt T T t u = .ret true ∨ compare pp p .eq T T t u = .ret true) ∧
    (compare pp p .ge T T t u = .ret true ↔ compare pp p .lt T T t u = .ret false) ∧
    (compare pp p .ne T T t u = .ret true ↔ compare pp p .eq T T t u = .ret false) := by
  rw [C94_same pp hm p .gt T hT t u ht hu, C94_same pp hm p .lt T hT t u ht hu, C94_same pp hm p .lt T hT u t hu ht,
    C94_same pp hm p .le T hT t u ht hu, C94_same pp hm p .ge T hT t u ht hu, C94_same pp hm p .eq T hT t u ht hu,
    C94_same pp hm p .ne T hT t u ht hu]
  simp only [rel, Out.ret.injEq, decide_eq_true_eq, decide_eq_false_iff_not]
  refine ⟨trivial, ?_, ?_, ?_⟩
  · omega
  · omega
  · trivial

omit [Arch] in
private theorem ret_of_exact {o : Out Bool} {b x : Bool} (h : ExactOrThrows o b) (g : o = .ret x) : x = b := by
  rcases h with h | ⟨e, h⟩ | h <;> rw [g] at h
  · exact Out.ret.inj h
  · cases h
  · cases h

private theorem exact_any {pp : PP} (hpp : pp.Wf) {p : EP} (hp : p.ae = .throw ∨ p.ae = .trap) (o : Rel) {T U : Opd} (hT : T.Wf)
    (hU : U.Wf) {t u : Int} (ht : T.Has t) (hu : U.Has u) : ExactOrThrows (compare pp p o T U t u) (rel o t u) := by
  rcases hp with hp | hp
  · exact C28_exact pp hpp p hp o T U hT hU t u ht hu
  · rcases C30_compare pp hpp p hp o T U hT hU with h | h
    · exact Or.inr (Or.inr (h t u ht hu))
    · exact Or.inl (h t u ht hu)

/-- Values of three types, a policy that throws or traps: if `a < b` and `b < c` are true then `a < c` is true, throws, or does not
compile; it is never false. Missing: an answer in all cases, see `C94_mixed_refuted`. -/
theorem C94_mixed_partial (pp : PP) (hpp : pp.Wf) (p : EP) (hp : p.ae = .throw ∨ p.ae = .trap) (T U V : Opd) (hT : T.Wf) (hU : U.Wf)
    (hV : V.Wf) (a b c : Int) (ha : T.Has a) (hb : U.Has b) (hc : V.Has c)
    (h1 : compare pp p .lt T U a b = .ret true) (h2 : compare pp p .lt U V b c = .ret true) :
    ExactOrThrows (compare pp p .lt T V a c) true := by
  have k1 := ret_of_exact (exact_any hpp hp .lt hT hU ha hb) h1
  have k2 := ret_of_exact (exact_any hpp hp .lt hU hV hb hc) h2
  have k := exact_any hpp hp .lt hT hV ha hc
  simp only [rel] at *
  rwa [decide_eq_true (by have := of_decide_eq_true k1.symm; have := of_decide_eq_true k2.symm; omega)] at k

/-- Values of two types, a policy that throws or traps: at most one of `a < b`, `a == b`, `b < a` is true, and if all three
have an answer then exactly one is. -/
theorem C94_one_partial (pp : PP) (hpp : pp.Wf) (p : EP) (hp : p.ae = .throw ∨ p.ae = .trap) (T U : Opd) (hT : T.Wf) (hU : U.Wf)
    (a b : Int) (ha : T.Has a) (hb : U.Has b) (x y z : Bool) (hx : compare pp p .lt T U a b = .ret x)
    (hy : compare pp p .eq T U a b = .ret y) (hz : compare pp p .lt U T b a = .ret z) :
    (x = true ∧ y = false ∧ z = false) ∨ (x = false ∧ y = true ∧ z = false) ∨ (x = false ∧ y = false ∧ z = true) := by
  have k1 := ret_of_exact (exact_any hpp hp .lt hT hU ha hb) hx
  have k2 := ret_of_exact (exact_any hpp hp .eq hT hU ha hb) hy
  have k3 := ret_of_exact (exact_any hpp hp .lt hU hT hb ha) hz
  subst k1 k2 k3
  simp only [rel, decide_eq_true_eq, decide_eq_false_iff_not]
  omega

end

section
attribute [local instance] lp64

/-- Three types: `-1 < 0` for `int` and `long`, `0 < 5` for `long` and `unsigned`, but `-1 < 5` for `int` and `unsigned` throws. -/
theorem C94_mixed_refuted :
    compare .native strictException .lt (Opd.ofSafe i32) (Opd.ofSafe i64) (-1) 0 = .ret true ∧
    compare .native strictException .lt (Opd.ofSafe i64) (Opd.ofSafe u32) 0 5 = .ret true ∧
    compare .native strictException .lt (Opd.ofSafe i32) (Opd.ofSafe u32) (-1) 5 = .thrown .domain_error := by
  decide +kernel

/-- With a policy that ignores errors the comparison of `-1` and `5` in these types is undefined behaviour. -/
theorem C94_ignore_refuted :
    compare .native ⟨.ignore, .ignore, .ignore, .ignore⟩ .lt (Opd.ofSafe i32) (Opd.ofSafe i64) (-1) 0 = .ret true ∧
    compare .native ⟨.ignore, .ignore, .ignore, .ignore⟩ .lt (Opd.ofSafe i64) (Opd.ofSafe u32) 0 5 = .ret true ∧
    compare .native ⟨.ignore, .ignore, .ignore, .ignore⟩ .lt (Opd.ofSafe i32) (Opd.ofSafe u32) (-1) 5 = .fault .ub := by
  decide +kernel

/-- `cpp` with a `char` wider than `int`: two values of one type need not be comparable. -/
theorem C94_cpp_refuted : ¬ CppOrdered ⟨2, 0, 0, 1, 3⟩ ∧
    compare (.cpp ⟨2, 0, 0, 1, 3⟩) strictException .lt (Opd.ofSafe i32) (Opd.ofSafe i32) 1000 2000 =
      .thrown .positive_overflow_error := by
  decide +kernel

-- comparisons of one type with three promotion policies and two exception policies
example : compare .native strictException .lt (Opd.range u8 3 200) (Opd.range u8 3 200) 7 199 = .ret true ∧
    compare .automatic strictTrap .ge (Opd.ofSafe u64) (Opd.ofSafe u64) 18446744073709551615 0 = .ret true ∧
    compare (.cpp ⟨0, 1, 1, 2, 2⟩) ⟨.ignore, .ignore, .ignore, .ignore⟩ .eq (Opd.ofSafe i8) (Opd.ofSafe i8) (-128) 127 = .ret false ∧
    CppOrdered ⟨0, 1, 1, 2, 2⟩ ∧ (Opd.range u8 3 200).Wf := by decide +kernel

end
end Verif.Props
