import Verif.Props.Port

/-!
Property C84: refactoring. A program may be rewritten by any law of integer arithmetic and of statements; where both forms end without an
exception, the result is the same.
-/

namespace Verif.Props
open Spec Lang

/-! ### laws of the integer computation -/

/-- an expression may be replaced by one with the same value over the integers -/
theorem C84_assign {n : Nat} (i : Fin n) (e e' : UExpr n) (h : ∀ s, uval s e = uval s e') : IntEq (.assign i e) (.assign i e') := by
  intro s r
  constructor <;> rintro ⟨f, hf⟩ <;> refine ⟨f, ?_⟩ <;> cases f with
  | zero => cases hf
  | succ f => simp only [uexec] at hf ⊢; first | (rw [← h]; exact hf) | (rw [h]; exact hf)

/-- what is written may be replaced -/
theorem C84_output {n : Nat} (e e' : UExpr n) (h : ∀ s, uval s e = uval s e') : IntEq (.output e) (.output e') := by
  intro s r
  constructor <;> rintro ⟨f, hf⟩ <;> refine ⟨f, ?_⟩ <;> cases f with
  | zero => cases hf
  | succ f => simp only [uexec] at hf ⊢; first | (rw [← h]; exact hf) | (rw [h]; exact hf)

/-- `x op= e` is `x = x op e` -/
theorem C84_opAssign {n : Nat} (o : Op2) (i : Fin n) (e : UExpr n) : IntEq (.opAssign o i e) (.assign i (.bin o (.var i) e)) := by
  have key : ∀ f s, uexec (f + 1) (.opAssign o i e) s = uexec (f + 1) (.assign i (.bin o (.var i) e)) s := by
    intro f s
    show some ((uval s.st e).bind fun u => (imath o (s.st i) u).bind fun v => some (s.write i v)) =
      some (((uval s.st e).bind fun u => imath o (s.st i) u).map (s.write i))
    cases uval s.st e with
    | none => rfl
    | some u => show some ((imath o (s.st i) u).bind _) = some ((imath o (s.st i) u).map _); cases imath o (s.st i) u <;> rfl
  intro s r
  constructor <;> rintro ⟨f, hf⟩ <;> refine ⟨f, ?_⟩ <;> cases f with
  | zero => cases hf
  | succ f => first | (rw [← key]; exact hf) | (rw [key]; exact hf)

/-- `++x` is `x += 1`, `--x` is `x -= 1` -/
theorem C84_incDec {n : Nat} (i : Fin n) :
    IntEq (.inc i) (.opAssign (.ar .add) i (.num 1)) ∧ IntEq (.dec i) (.opAssign (.ar .sub) i (.num 1)) := by
  constructor <;> intro s r <;> constructor <;> rintro ⟨f, hf⟩ <;> refine ⟨f, ?_⟩ <;> cases f with
  | zero => cases hf
  | succ f => exact hf

private theorem seq_means {n : Nat} {a b : UStmt n} {s : IState n} {r : Option (IState n)} :
    Means (.seq a b) s r ↔ (∃ s', Means a s (some s') ∧ Means b s' r) ∨ (Means a s none ∧ r = none) := by
  constructor
  · rintro ⟨f, hf⟩
    cases f with
    | zero => cases hf
    | succ f =>
      simp only [uexec] at hf
      rcases ha : uexec f a s with _ | _ | s'
      · rw [ha] at hf; cases hf
      · rw [ha] at hf; cases hf; exact Or.inr ⟨⟨f, ha⟩, rfl⟩
      · rw [ha] at hf; exact Or.inl ⟨s', ⟨f, ha⟩, ⟨f, hf⟩⟩
  · rintro (⟨s', ⟨f, hf⟩, ⟨g, hg⟩⟩ | ⟨⟨f, hf⟩, rfl⟩)
    · refine ⟨max f g + 1, ?_⟩
      simp only [uexec]
      rw [uexec_mono f a s _ hf _ (le_max_left _ _)]
      exact uexec_mono g b s' _ hg _ (le_max_right _ _)
    · refine ⟨f + 1, ?_⟩
      simp only [uexec]
      rw [hf]

private theorem ite_means {n : Nat} {c : UCond n} {a b : UStmt n} {s : IState n} {r : Option (IState n)} :
    Means (.ite c a b) s r ↔ (ucond s.st c = some true ∧ Means a s r) ∨ (ucond s.st c = some false ∧ Means b s r) ∨
      (ucond s.st c = none ∧ r = none) := by
  constructor
  · rintro ⟨f, hf⟩
    cases f with
    | zero => cases hf
    | succ f =>
      simp only [uexec] at hf
      rcases hc : ucond s.st c with _ | _ | _
      · rw [hc] at hf; cases hf; exact Or.inr (Or.inr ⟨rfl, rfl⟩)
      · rw [hc] at hf; exact Or.inr (Or.inl ⟨rfl, f, hf⟩)
      · rw [hc] at hf; exact Or.inl ⟨rfl, f, hf⟩
  · rintro (⟨hc, f, hf⟩ | ⟨hc, f, hf⟩ | ⟨hc, rfl⟩)
    · exact ⟨f + 1, by simp only [uexec]; rw [hc]; exact hf⟩
    · exact ⟨f + 1, by simp only [uexec]; rw [hc]; exact hf⟩
    · exact ⟨1, by simp only [uexec]; rw [hc]⟩

/-- a loop is its first round and then the loop -/
theorem C84_unroll {n : Nat} (c : UCond n) (a : UStmt n) : IntEq (.while c a) (.ite c (.seq a (.while c a)) .skip) := by
  intro s r
  rw [ite_means]
  constructor
  · rintro ⟨f, hf⟩
    cases f with
    | zero => cases hf
    | succ f =>
      simp only [uexec] at hf
      rcases hc : ucond s.st c with _ | _ | _
      · rw [hc] at hf; cases hf; exact Or.inr (Or.inr ⟨rfl, rfl⟩)
      · rw [hc] at hf; exact Or.inr (Or.inl ⟨rfl, 1, hf⟩)
      · rw [hc] at hf
        exact Or.inl ⟨rfl, f + 1, hf⟩
  · rintro (⟨hc, f, hf⟩ | ⟨hc, f, hf⟩ | ⟨hc, rfl⟩)
    · cases f with
      | zero => cases hf
      | succ f =>
        refine ⟨f + 1, ?_⟩
        simp only [uexec]
        rw [hc]
        exact hf
    · refine ⟨1, ?_⟩
      simp only [uexec]
      rw [hc]
      cases f with
      | zero => cases hf
      | succ f => exact hf
    · exact ⟨1, by simp only [uexec]; rw [hc]⟩

/-- parts of a sequence may be replaced -/
theorem C84_seq {n : Nat} {a a' b b' : UStmt n} (ha : IntEq a a') (hb : IntEq b b') : IntEq (.seq a b) (.seq a' b') := by
  intro s r
  rw [seq_means, seq_means]
  simp only [ha s, hb _ r]

/-- sequences are associative, `skip` does nothing -/
theorem C84_seq_laws {n : Nat} (a b c : UStmt n) :
    IntEq (.seq (.seq a b) c) (.seq a (.seq b c)) ∧ IntEq (.seq .skip a) a ∧ IntEq (.seq a .skip) a := by
  have skip : ∀ (s : IState n) r, Means .skip s r ↔ r = some s := by
    intro s r
    constructor
    · rintro ⟨f, hf⟩
      cases f with
      | zero => cases hf
      | succ f => cases hf; rfl
    · rintro rfl; exact ⟨1, rfl⟩
  refine ⟨fun s r => ?_, fun s r => ?_, fun s r => ?_⟩
  · simp only [seq_means]
    constructor
    · rintro (⟨s', (⟨s1, h1, h2⟩ | ⟨_, h2⟩), h3⟩ | ⟨(⟨s1, h1, h2⟩ | ⟨h1, _⟩), h3⟩)
      · exact Or.inl ⟨s1, h1, Or.inl ⟨s', h2, h3⟩⟩
      · cases h2
      · exact Or.inl ⟨s1, h1, Or.inr ⟨h2, h3⟩⟩
      · exact Or.inr ⟨h1, h3⟩
    · rintro (⟨s1, h1, (⟨s', h2, h3⟩ | ⟨h2, h3⟩)⟩ | ⟨h1, h3⟩)
      · exact Or.inl ⟨s', Or.inl ⟨s1, h1, h2⟩, h3⟩
      · exact Or.inr ⟨Or.inl ⟨s1, h1, h2⟩, h3⟩
      · exact Or.inr ⟨Or.inr ⟨h1, trivial⟩, h3⟩
  · rw [seq_means]
    constructor
    · rintro (⟨s', h1, h2⟩ | ⟨h1, _⟩)
      · rw [skip] at h1; cases h1; exact h2
      · rw [skip] at h1; cases h1
    · exact fun h => Or.inl ⟨s, (skip _ _).2 rfl, h⟩
  · rw [seq_means]
    constructor
    · rintro (⟨s', h1, h2⟩ | ⟨h1, rfl⟩)
      · rw [skip] at h2; rw [h2]; exact h1
      · exact h1
    · intro h
      cases r with
      | none => exact Or.inr ⟨h, rfl⟩
      | some s' => exact Or.inl ⟨s', h, (skip _ _).2 rfl⟩

/-- branches may be replaced, and the condition by one with the same value -/
theorem C84_ite {n : Nat} {c c' : UCond n} {a a' b b' : UStmt n} (hc : ∀ s, ucond s c = ucond s c') (ha : IntEq a a') (hb : IntEq b b') :
    IntEq (.ite c a b) (.ite c' a' b') := by
  intro s r
  rw [ite_means, ite_means]
  simp only [ha s, hb s, hc]

/-- `if(!c) a else b` is `if(c) b else a` -/
theorem C84_ite_not {n : Nat} (c : UCond n) (a b : UStmt n) : IntEq (.ite (.not c) a b) (.ite c b a) := by
  intro s r
  have e : ucond s.st (.not c) = (ucond s.st c).map (! ·) := by
    show (ucond s.st c).bind _ = _
    cases ucond s.st c <;> rfl
  rw [ite_means, ite_means, e]
  rcases ucond s.st c with _ | _ | _ <;> simp

/-- the body of a loop may be replaced, and the condition -/
theorem C84_while {n : Nat} {c c' : UCond n} {a a' : UStmt n} (hc : ∀ s, ucond s c = ucond s c') (ha : IntEq a a') :
    IntEq (.while c a) (.while c' a') := by
  have one : ∀ {c c' : UCond n} {a a' : UStmt n}, (∀ s, ucond s c = ucond s c') → IntEq a a' →
      ∀ f (s : IState n) r, uexec f (.while c a) s = some r → Means (.while c' a') s r := by
    intro c c' a a' hc ha f
    induction f with
    | zero => intro s r hf; cases hf
    | succ f ih =>
      intro s r hf
      rw [C84_unroll c' a' s r, ite_means, ← hc]
      simp only [uexec] at hf
      rcases hx : ucond s.st c with _ | _ | _
      · rw [hx] at hf; cases hf; exact Or.inr (Or.inr ⟨rfl, rfl⟩)
      · rw [hx] at hf; exact Or.inr (Or.inl ⟨rfl, 1, hf⟩)
      · rw [hx] at hf
        dsimp only at hf
        refine Or.inl ⟨rfl, ?_⟩
        rw [seq_means]
        rcases hb : uexec f a s with _ | _ | s'
        · rw [hb] at hf; cases hf
        · rw [hb] at hf; cases hf
          exact Or.inr ⟨(ha s none).1 ⟨f, hb⟩, rfl⟩
        · rw [hb] at hf
          exact Or.inl ⟨s', (ha s _).1 ⟨f, hb⟩, ih s' r hf⟩
  intro s r
  exact ⟨fun ⟨f, hf⟩ => one hc ha f s r hf, fun ⟨f, hf⟩ => one (fun s => (hc s).symm) (fun s r => (ha s r).symm) f s r hf⟩

/-! ### the theorems -/

/-- C84, expressions: two expressions with the same value over the integers, whatever their types, policies and machines, have the same
value wherever both are evaluated without an exception. -/
theorem C84_expression_partial (A A' : Arch) {N N' : Names} (hN : @Careful A N) (hN' : @Careful A' N') {n : Nat} (Γ : Fin n → PTy N)
    (Γ' : Fin n → PTy N') (hΓ : @GoodVars A n N Γ) (hΓ' : @GoodVars A' n N' Γ') (s : Fin n → Int) (hs : Ranged Γ s) (hs' : Ranged Γ' s)
    (e : LExpr N n) (e' : LExpr N' n) (he : @ECovered A n N Γ e) (he' : @ECovered A' n N' Γ' e') (heq : ival s e = ival s e') (v v' : Int)
    (h : @LExpr.eval A n N Γ s e = .ret v) (h' : @LExpr.eval A' n N' Γ' s e' = .ret v') : v = v' := by
  have one : ∀ (A : Arch) {N : Names} (_ : @Careful A N) (Γ : Fin n → PTy N) (_ : @GoodVars A n N Γ) (_ : Ranged Γ s)
      (e : LExpr N n) (_ : @ECovered A n N Γ e) (v : Int), @LExpr.eval A n N Γ s e = .ret v → ival s e = some v := by
    intro A N hN Γ hΓ hs e he v h
    let _ := A
    rcases C58_exact_partial hN Γ hΓ s hs e he with ⟨T, w, h1, h2, _⟩ | ⟨x, h1⟩ | h1
    · rw [h1] at h; cases h; exact h2
    · rw [h1] at h; cases h
    · rw [h1] at h; cases h
  have e1 := one A hN Γ hΓ hs e he v h
  have e2 := one A' hN' Γ' hΓ' hs' e' he' v' h'
  rw [e1, e2] at heq
  exact Option.some.inj heq

/-- C84, programs: two programs that do the same over the integers, whatever their types, policies, handlers and machines, end with the
same values of all variables, the same output and the same rest of the input if both end without an exception. -/
theorem C84_program_partial (A A' : Arch) {N N' : Names} {n : Nat} (Γ : Fin n → PTy N) (Γ' : Fin n → PTy N') (p : LStmt N n)
    (p' : LStmt N' n) (hv : Version A Γ p) (hv' : Version A' Γ' p') (ht : IntEq (textS p) (textS p')) (s s' r r' : LState n)
    (hs : Ranged Γ s.st) (hs' : Ranged Γ' s'.st) (hss : abst s = abst s') (h : EndsWell A Γ p s r) (h' : EndsWell A' Γ' p' s' r') :
    abst r = abst r' := by
  obtain ⟨f, e⟩ := endsWell_int hv hs h
  obtain ⟨f', e'⟩ := endsWell_int hv' hs' h'
  rw [hss] at e
  obtain ⟨g, hg⟩ := (ht _ _).1 ⟨f, uexec_text f p _ _ e⟩
  have a := uexec_mono g _ _ _ hg (max g f') (le_max_left _ _)
  have b := uexec_mono f' _ _ _ (uexec_text f' p' _ _ e') (max g f') (le_max_right _ _)
  rw [a] at b
  exact Option.some.inj (Option.some.inj b)

/-- C84: if one form ends without an exception, the other form, if it has no handlers, ends as well, with the same result or with an
exception, or it does not compile. -/
theorem C84_ends_partial (A A' : Arch) {N N' : Names} {n : Nat} (Γ : Fin n → PTy N) (Γ' : Fin n → PTy N') (p : LStmt N n)
    (p' : LStmt N' n) (hv : Version A Γ p) (hv' : Version A' Γ' p') (ht : IntEq (textS p) (textS p')) (hn : NoTry p') (s s' r : LState n)
    (hs : Ranged Γ s.st) (hs' : Ranged Γ' s'.st) (hss : abst s = abst s') (h : EndsWell A Γ p s r) :
    letI := A'
    (∃ r', EndsWell A' Γ' p' s' r' ∧ abst r = abst r') ∨ (∃ e r', Ends Γ' p' s' (.thrown e) r') ∨
    ∃ r', Ends Γ' p' s' (.fault .illFormed) r' := by
  have hsame := fun r' h' => C84_program_partial A A' Γ Γ' p p' hv hv' ht s s' r r' hs hs' hss h h'
  let _ := A'
  obtain ⟨hN, hΓ, hp⟩ := hv'
  obtain ⟨f, e⟩ := endsWell_int hv hs h
  rw [hss] at e
  obtain ⟨g0, hg0⟩ := (ht _ _).1 ⟨f, uexec_text f p _ _ e⟩
  obtain ⟨g, hg⟩ := exec_of_text g0 p' _ _ hg0
  rcases hx : p'.exec Γ' g s' with _ | ⟨o, r'⟩
  · rw [none_of_none hN hΓ g p' s' hn hp hs' hx] at hg; cases hg
  · have hb := fun k hk => C59_bound Γ' g p' s' _ hx k hk
    obtain ⟨h1, _⟩ := exec_fine hN hΓ g p' s' o r' hp hs' hx
    rcases h1 with rfl | ⟨x, rfl⟩ | rfl
    · have he : EndsWell A' Γ' p' s' r' := ⟨⟨g, hb⟩, caught_same Γ' g p' s' _ r' hn hx⟩
      exact Or.inl ⟨r', he, hsame r' he⟩
    · exact Or.inr (Or.inl ⟨x, r', g, hb⟩)
    · exact Or.inr (Or.inr ⟨r', g, hb⟩)

/-! ### instances -/

namespace Euclid

/-- the program of C83 for 16 bits, refactored: `r = a - a / b * b` instead of `r = a % b`, `!(b == 0)` instead of `b != 0` and the first
round before the loop, all wrapped in a condition -/
def ugcd : UStmt 3 :=
  let c : UCond 3 := .not (.cmp .eq (.var 1) (.num 0))
  let a : UStmt 3 := .seq (.assign 2 (.bin (.ar .sub) (.var 0) (.bin (.ar .mul) (.bin (.ar .div) (.var 0) (.var 1)) (.var 1))))
    (.seq (.assign 0 (.var 1)) (.assign 1 (.var 2)))
  .ite c (.seq a (.while c a)) .skip

/-- it does the same over the integers -/
theorem refactored : IntEq (textS gcd) ugcd := by
  have hc : ∀ s : Fin 3 → Int, ucond s (.cmp .ne (.var 1) (.num 0)) = ucond s (.not (.cmp .eq (.var 1) (.num 0))) := by
    intro s
    show some (rel .ne (s 1) 0) = some (! rel .eq (s 1) 0)
    simp [rel]
  have ha : ∀ s : Fin 3 → Int, uval s (.bin (.ar .mod) (.var 0) (.var 1)) =
      uval s (.bin (.ar .sub) (.var 0) (.bin (.ar .mul) (.bin (.ar .div) (.var 0) (.var 1)) (.var 1))) := by
    intro s
    show imath (.ar .mod) (s 0) (s 1) = ((imath (.ar .div) (s 0) (s 1)).bind fun d => some (d * s 1)).bind fun m => some (s 0 - m)
    simp only [imath]
    by_cases h : s 1 = 0
    · simp [h]
    · simp only [h, if_false, Option.bind_some, Int.tmod_def, mul_comm]
  have step : IntEq (textS gcd) (.while (.not (.cmp .eq (.var 1) (.num 0))) (.seq (.assign 2 (.bin (.ar .sub) (.var 0) (.bin (.ar .mul)
      (.bin (.ar .div) (.var 0) (.var 1)) (.var 1)))) (.seq (.assign 0 (.var 1)) (.assign 1 (.var 2))))) :=
    C84_while hc (C84_seq (C84_assign 2 _ _ ha) (fun _ _ => Iff.rfl))
  exact fun s r => (step s r).trans (C84_unroll _ _ s r)

end Euclid

namespace Port
attribute [local instance] lp64

/-- `(x + y) * z` -/
def factored : LExpr names 3 := .bin (.ar .mul) (.bin (.ar .add) (.var 0) (.var 1)) (.var 2)

/-- `x * z + y * z` -/
def expanded : LExpr names 3 := .bin (.ar .add) (.bin (.ar .mul) (.var 0) (.var 2)) (.bin (.ar .mul) (.var 1) (.var 2))

/-- the distributive law for `safe<int>` on the left and `safe<long>` on the right: whenever both sides are evaluated without an
exception they agree -/
theorem C84_distributive (s : Fin 3 → Int) (hs : Ranged (fun _ => safeT i32) s) (v v' : Int)
    (h : factored.eval (fun _ => safeT i32) s = .ret v) (h' : expanded.eval (fun _ => safeT i64) s = .ret v') : v = v' := by
  have hN : Careful names := ⟨fun _ => Or.inl rfl, fun _ => trivial⟩
  have good : ∀ B : ITy, (Opd.ofSafe B).Wf → @GoodVars _ 3 names fun _ => safeT B :=
    fun B h _ => ⟨⟨h, nofun, fun _ => ⟨nofun, nofun⟩, nofun⟩, Or.inr rfl⟩
  have safe : ∀ (B : ITy) o (a b : LExpr names 3), (a = .var 0 ∨ a = .var 1) → ECovered (fun _ => safeT B) b → o = .add ∨ o = .mul →
      ECovered (fun _ => safeT B) (.bin (.ar o) a b) := by
    rintro B o a b (rfl | rfl) hb (rfl | rfl) <;>
      exact ⟨trivial, hb, fun T U h _ => by cases h; exact ⟨Or.inl rfl, fun _ _ _ _ => trivial⟩⟩
  have c1 : ECovered (fun _ => safeT i32) factored := by
    refine ⟨safe _ .add _ _ (Or.inl rfl) trivial (Or.inl rfl), trivial, fun T U _ h => ?_⟩
    cases h
    exact ⟨Or.inr rfl, fun _ _ _ _ => trivial⟩
  have c2 : ECovered (fun _ => safeT i64) expanded := by
    refine ⟨safe _ .mul _ _ (Or.inl rfl) trivial (Or.inr rfl), safe _ .mul _ _ (Or.inr rfl) trivial (Or.inr rfl), fun T U h _ => ?_⟩
    refine ⟨Or.inl ?_, fun _ _ _ _ => trivial⟩
    have h : pBinTy (.ar .mul) (safeT i64) (safeT i64) = .ret T := h
    rw [show pBinTy (.ar .mul) (safeT i64) (safeT i64) = .ret (safeT i64) by decide +kernel] at h
    cases h
    rfl
  refine C84_expression_partial lp64 lp64 hN hN _ _ (good i32 (by decide +kernel)) (good i64 (by decide +kernel)) s hs (fun i => ?_)
    factored expanded c1 c2 ?_ v v' h h'
  · have h1 : -2147483648 ≤ s i ∧ s i ≤ 2147483647 := hs i
    show -9223372036854775808 ≤ s i ∧ s i ≤ 9223372036854775807
    omega
  · show some ((s 0 + s 1) * s 2) = some (s 0 * s 2 + s 1 * s 2)
    rw [Int.add_mul]

-- both sides do have values, and only one of them for larger operands
example : factored.eval (fun _ => safeT i32) (fun i => i + 5) = .ret 77 ∧ expanded.eval (fun _ => safeT i64) (fun i => i + 5) = .ret 77 ∧
    factored.eval (fun _ => safeT i32) (fun _ => 2147483647) = .thrown .positive_overflow_error ∧
    expanded.eval (fun _ => safeT i64) (fun _ => 2147483647) = .ret 9223372028264841218 := by decide +kernel

end Port

section
attribute [local instance] lp64

/-- associativity needs the exceptions: `(100 + 100) + -100` throws for 8 bits under the cpp policy for an 8-bit machine, `100 + (100 + -100)`
is 100; where both return they agree (C84) -/
example : (do let x ← arith (.cpp ⟨0, 0, 0, 0, 0⟩) strictException .add (Opd.ofSafe i8) (Opd.ofSafe i8) 100 100
              arith (.cpp ⟨0, 0, 0, 0, 0⟩) strictException .add (Opd.ofSafe i8) (Opd.ofSafe i8) x (-100)) = .thrown .positive_overflow_error ∧
    (do let x ← arith (.cpp ⟨0, 0, 0, 0, 0⟩) strictException .add (Opd.ofSafe i8) (Opd.ofSafe i8) 100 (-100)
        arith (.cpp ⟨0, 0, 0, 0, 0⟩) strictException .add (Opd.ofSafe i8) (Opd.ofSafe i8) 100 x) = .ret 100 := by decide +kernel

end
end Verif.Props
