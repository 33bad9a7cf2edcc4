import Verif.Proofs.Bare
import Verif.Props.Fits

/-!
Property C74: drop-in replacement. A run in which the library reports nothing is the run of the same program with built-in
types.
-/

namespace Verif.Props
open Spec Lang

section
variable [Arch]

/-- Expressions, native promotion, policies that throw or trap: if the expression with safe types returns a value, the same
expression with the built-in types has no undefined behaviour and the same value. -/
theorem C74_expression_partial {N : Names} (hN : Careful N) (hn : Native N) {n : Nat} (Γ : Fin n → PTy N) (hΓ : GoodVars Γ)
    (s : Fin n → Int) (hs : Ranged Γ s) (e : LExpr N n) (he : ECovered Γ e) (hb : EBare Γ e) (v : Int)
    (h : e.eval Γ s = .ret v) : (bareE e).eval (fun i => bareTy (Γ i)) s = .ret v :=
  eval_bare hN hn hΓ hs e he hb h

/-- Conditions. -/
theorem C74_condition_partial {N : Names} (hN : Careful N) (hn : Native N) {n : Nat} (Γ : Fin n → PTy N) (hΓ : GoodVars Γ)
    (s : Fin n → Int) (hs : Ranged Γ s) (c : LCond N n) (hc : CCovered Γ c) (hb : CBare Γ c) (r : Bool)
    (h : c.eval Γ s = .ret r) : (bareC c).eval (fun i => bareTy (Γ i)) s = .ret r :=
  cond_bare hN hn hΓ hs c hc hb h

/-- Whole programs with loops, input, output and handlers: a run that ends without an exception, thrown or caught, is step by step
the run of the program with built-in types: the same variables, input consumed and output written, and no undefined
behaviour. -/
theorem C74_program_partial {N : Names} (hN : Careful N) (hn : Native N) {n : Nat} (Γ : Fin n → PTy N) (hΓ : GoodVars Γ)
    (f : Nat) (p : LStmt N n) (s s' : LState n) (hp : SCovered Γ p) (hb : SBare Γ p) (hs : Ranged Γ s.st)
    (h : p.exec Γ f s = some (.ret (), s')) (hk : s'.caught = s.caught) :
    (bareS p).exec (fun i => bareTy (Γ i)) f s = some (.ret (), s') :=
  exec_bare hN hn hΓ f p s s' hp hb hs h hk

/-- The same for runs of any length. -/
theorem C74_ends_partial {N : Names} (hN : Careful N) (hn : Native N) {n : Nat} (Γ : Fin n → PTy N) (hΓ : GoodVars Γ)
    (p : LStmt N n) (s s' : LState n) (hp : SCovered Γ p) (hb : SBare Γ p) (hs : Ranged Γ s.st)
    (h : Ends Γ p s (.ret ()) s') (hk : s'.caught = s.caught) : Ends (fun i => bareTy (Γ i)) (bareS p) s (.ret ()) s' := by
  obtain ⟨k, h⟩ := h
  exact ⟨k, fun f hf => exec_bare hN hn hΓ f p s s' hp hb hs (h f hf) hk⟩

/-- Every error of the program with built-in types is reported: if its run has undefined behaviour (or any outcome other than
that of the program with safe types), then the program with safe types, if it ends at all, throws an exception, catches
one, or was not accepted by the compiler. -/
theorem C74_reported_partial {N : Names} (hN : Careful N) (hn : Native N) {n : Nat} (Γ : Fin n → PTy N) (hΓ : GoodVars Γ)
    (p : LStmt N n) (s s1 s2 : LState n) (r1 r2 : Out Unit) (hp : SCovered Γ p) (hb : SBare Γ p) (hs : Ranged Γ s.st)
    (h1 : Ends Γ p s r1 s1) (h2 : Ends (fun i => bareTy (Γ i)) (bareS p) s r2 s2) (hd : r2 ≠ .ret () ∨ s1 ≠ s2) :
    (∃ x, r1 = .thrown x) ∨ r1 = .fault .illFormed ∨ s.caught < s1.caught := by
  obtain ⟨k1, h1⟩ := h1
  obtain ⟨k2, h2⟩ := h2
  have e1 := h1 (max k1 k2) (le_max_left _ _)
  have e2 := h2 (max k1 k2) (le_max_right _ _)
  obtain ⟨g1, _, g3, _⟩ := exec_fine hN hΓ _ p s r1 s1 hp hs e1
  rcases g1 with rfl | g | g
  · rcases Nat.lt_or_ge s.caught s1.caught with g | g
    · exact Or.inr (Or.inr g)
    · rw [exec_bare hN hn hΓ _ p s s1 hp hb hs e1 (by omega)] at e2
      cases e2
      rcases hd with hd | hd <;> exact absurd rfl hd
  · exact Or.inl g
  · exact Or.inr (Or.inl g)

/-- Together with C71: if everything fits (C66), the program with safe types, the program with built-in types and the
computation over the integers end alike. -/
theorem C74_three_partial {N : Names} (hN : Careful N) (hn : Native N) {n : Nat} (Γ : Fin n → PTy N) (hΓ : GoodVars Γ)
    (f : Nat) (p : LStmt N n) (s : LState n) (hp : SCovered Γ p) (hb : SBare Γ p) (hs : Ranged Γ s.st) (hi : StreamOk s.inp)
    (hf : SFits Γ f p (abst s)) :
    (p.exec Γ f s = none ∧ iexec f p (abst s) = none) ∨
    (∃ s', p.exec Γ f s = some (.ret (), s') ∧ (bareS p).exec (fun i => bareTy (Γ i)) f s = some (.ret (), s') ∧
      iexec f p (abst s) = some (some (abst s'))) ∨
    (∃ s', p.exec Γ f s = some (.fault .illFormed, s')) := by
  rcases C66_program_partial hN Γ hΓ f p s hp hs hi hf with h | ⟨s', h1, h2, h3, _⟩ | h
  · exact Or.inl h
  · exact Or.inr (Or.inl ⟨s', h1, exec_bare hN hn hΓ f p s s' hp hb hs h1 h3, h2⟩)
  · exact Or.inr (Or.inr h)

end

namespace Euclid
attribute [local instance] lp64

/-- the example meets the conditions -/
theorem bare : SBare Γ gcd := by
  refine ⟨⟨trivial, trivial, fun T U h1 h2 h => ?_⟩, ⟨trivial, trivial, fun _ _ _ _ => nofun⟩, trivial, trivial⟩
  cases h1; cases h2
  revert h; decide +kernel

-- Euclid's algorithm with `unsigned` does what it does with `safe<unsigned>`, from every state
example (f : Nat) (s s' : LState 3) (hs : Ranged Γ s.st) (h : gcd.exec Γ f s = some (.ret (), s')) (hk : s'.caught = s.caught) :
    (bareS gcd).exec (fun i => bareTy (Γ i)) f s = some (.ret (), s') :=
  C74_program_partial careful (fun _ => rfl) Γ good f gcd s s' covered bare hs h hk

example : ((bareS gcd).exec (fun i => bareTy (Γ i)) 20
    ⟨fun i => if i = 0 then 2310 else 546, ⟨[], false, false⟩, [], 0⟩).map (fun r => (r.1, r.2.st 0)) =
    some (.ret (), 42) := by decide +kernel

end Euclid

/-! ### the conditions are needed -/

section
attribute [local instance] lp64

/-- two policies: native and automatic promotion -/
@[reducible] def bareNames : Names :=
  ⟨Bool, Unit, inferInstance, inferInstance, fun b => if b then .automatic else .native, fun _ => strictException⟩

/-- variables of the refutations -/
def bareΓ : Fin 6 → PTy bareNames
  | 0 => ⟨Opd.range i32 (-5) 3, some false, some ()⟩
  | 1 => ⟨Opd.range u32 0 3, some false, some ()⟩
  | 2 => ⟨Opd.range u32 10 20, some false, some ()⟩
  | 3 => ⟨Opd.ofSafe i32, some true, some ()⟩
  | 4 => ⟨Opd.range i32 0 30, some false, some ()⟩
  | 5 => ⟨Opd.ofSafe i32, some false, some ()⟩

/-- The full statement (all operands, all policies) is false: a negative number shifted by zero is returned by the library and
undefined as a built-in expression in C++ 14; -/
theorem C74_refuted_shl :
    (LExpr.bin .shl (.var 5) (.var 4) : LExpr bareNames 6).eval bareΓ (fun i => if i = 5 then -1 else 0) = .ret (-1) ∧
    (bareE (LExpr.bin .shl (.var 5) (.var 4) : LExpr bareNames 6)).eval (fun i => bareTy (bareΓ i))
      (fun i => if i = 5 then -1 else 0) = .fault .ub := by
  decide +kernel

/-- a comparison of disjoint ranges is decided by the library, and wrong as a built-in expression when it mixes signed and
unsigned types; -/
theorem C74_refuted_compare :
    (LCond.cmp .lt (.var 0) (.var 2) : LCond bareNames 6).eval bareΓ (fun i => if i = 0 then -1 else 10) = .ret true ∧
    (bareC (LCond.cmp .lt (.var 0) (.var 2) : LCond bareNames 6)).eval (fun i => bareTy (bareΓ i))
      (fun i => if i = 0 then -1 else 10) = .ret false := by
  decide +kernel

/-- with automatic promotion the sum of two `int` has more than 32 bits, as a built-in expression it is undefined. -/
theorem C74_refuted_automatic :
    (LExpr.bin (.ar .add) (.var 3) (.var 3) : LExpr bareNames 6).eval bareΓ (fun _ => 2147483647) = .ret 4294967294 ∧
    (bareE (LExpr.bin (.ar .add) (.var 3) (.var 3) : LExpr bareNames 6)).eval (fun i => bareTy (bareΓ i))
      (fun _ => 2147483647) = .fault .ub := by
  decide +kernel

/-- Built-in characters: what is written is read back, unless it is white space. -/
theorem C74_char_round_trip (B : ITy) (hB : B.lg = 0) (t : Int) (ht : B.In t) (hw : t ≠ 32 ∧ ¬ (9 ≤ t ∧ t ≤ 13)) (old : Int)
    (rest : List Char) :
    IStream.extractChar B old ⟨printChar t ++ rest, false, false⟩ = (t, ⟨rest, false, false⟩) := by
  have ks : ∀ k : Fin 256, conv ⟨true, 0⟩ (Char.ofNat (((k : Int) - 128) % 256).toNat).toNat = (k : Int) - 128 := by decide +kernel
  have ku : ∀ k : Fin 256, conv ⟨false, 0⟩ (Char.ofNat ((k : Int) % 256).toNat).toNat = (k : Int) := by decide +kernel
  have kw : ∀ k : Fin 384, (k : Int) - 128 ≠ 32 ∧ ¬ (9 ≤ (k : Int) - 128 ∧ (k : Int) - 128 ≤ 13) →
      isWs (Char.ofNat (((k : Int) - 128) % 256).toNat) = false := by decide +kernel
  obtain ⟨sg, lg⟩ := B
  cases hB
  have hr : -128 ≤ t ∧ t ≤ 255 ∧ (sg = true → t ≤ 127) ∧ (sg = false → 0 ≤ t) := by
    obtain ⟨h1, h2⟩ := ht
    cases sg <;> simp [ITy.min, ITy.max, ITy.digits, ITy.bits] at h1 h2 ⊢ <;> omega
  have hws : isWs (Char.ofNat (t % 256).toNat) = false := by
    have e : (((t + 128).toNat : Nat) : Int) - 128 = t := by omega
    have := kw ⟨(t + 128).toNat, by omega⟩
    dsimp only at this
    rw [e] at this
    exact this hw
  have hv : conv ⟨sg, 0⟩ (Char.ofNat (t % 256).toNat).toNat = t := by
    cases sg
    · have e : ((t.toNat : Nat) : Int) = t := by have := hr.2.2.2 rfl; omega
      have := ku ⟨t.toNat, by omega⟩
      dsimp only at this
      rwa [e] at this
    · have e : (((t + 128).toNat : Nat) : Int) - 128 = t := by omega
      have := ks ⟨(t + 128).toNat, by have := hr.2.2.1 rfl; omega⟩
      dsimp only at this
      rwa [e] at this
  unfold IStream.extractChar IStream.sentry printChar
  simp only [List.cons_append, List.nil_append, List.dropWhile_cons, hws, Bool.or_self, Bool.false_eq_true, if_false,
    List.isEmpty_cons, if_true, hv]

-- `A`
example : i8.lg = 0 ∧ i8.In 65 ∧ (65 : Int) ≠ 32 ∧ ¬ ((9 : Int) ≤ 65 ∧ (65 : Int) ≤ 13) := by decide

/-- Characters: a program that writes a safe type stored in a character type writes the number, the built-in program the
character. The texts differ for every value; -/
theorem C74_refuted_char_output [Arch] {N : Names} (T : PTy N) (hT : PTy.Wf T) (hs : T.isSafe = true) (hc : T.opd.base.lg = 0)
    (t : Int) (ht : T.opd.Has t) :
    ∃ a b, outputStep T t = .ret a ∧ outputStep (bareTy T) t = .ret b ∧ a ≠ b := by
  have key : ∀ k : Fin 384, printInt ((k : Int) - 128) ≠ printChar ((k : Int) - 128) := by decide +kernel
  have hin := hT.1.has_in ht
  have hr : -128 ≤ t ∧ t ≤ 255 := by
    obtain ⟨h1, h2⟩ := hin
    unfold ITy.min ITy.max ITy.digits ITy.bits at *
    rw [hc] at h1 h2
    rcases hg : T.opd.base.signed <;> simp [hg] at h1 h2 <;> omega
  refine ⟨printInt t, printChar t, ?_, ?_, ?_⟩
  · simp only [outputStep, hs, if_true, C51_output T.opd hT.1 t ht]
  · have h0 : (bareTy T).isSafe = false := rfl
    have h1 : isCharTy (bareTy T).opd.base = true := by
      show (T.opd.base.lg == 0) = true
      rw [hc]; rfl
    simp only [outputStep, h0, h1, if_true, Bool.false_eq_true, if_false]
  · have := key ⟨(t + 128).toNat, by omega⟩
    have e : (((t + 128).toNat : Nat) : Int) - 128 = t := by omega
    rwa [show ((⟨(t + 128).toNat, by omega⟩ : Fin 384) : Nat) = (t + 128).toNat from rfl, e] at this

/-- `safe<signed char>` -/
def bareChar : Fin 1 → PTy bareNames := fun _ => ⟨Opd.ofSafe i8, some false, some ()⟩

-- a range of characters with a value
example : PTy.Wf (bareChar 0) ∧ (bareChar 0).isSafe = true ∧ (bareChar 0).opd.base.lg = 0 ∧ (bareChar 0).opd.Has 65 :=
  ⟨⟨by decide, fun h => (by cases h), fun _ => ⟨by decide, by decide⟩, fun b h => by cases h⟩, by decide, by decide, by decide⟩

/-- and reading " 78" stores the number 78 with the first and the code of the character 7, which is 55, with the second, leaving the rest of
the text to be read. -/
theorem C74_refuted_char_input :
    ((LStmt.input 0 : LStmt bareNames 1).exec bareChar 5 ⟨fun _ => 0, ⟨[' ', '7', '8'], false, false⟩, [], 0⟩).map
      (fun r => (r.1, r.2.st 0, r.2.inp.buf)) = some (.ret (), 78, []) ∧
    ((bareS (LStmt.input 0 : LStmt bareNames 1)).exec (fun i => bareTy (bareChar i)) 5
      ⟨fun _ => 0, ⟨[' ', '7', '8'], false, false⟩, [], 0⟩).map (fun r => (r.1, r.2.st 0, r.2.inp.buf)) =
      some (.ret (), 55, ['8']) := by
  decide +kernel

-- a program whose built-in version has undefined behaviour: the safe one throws
example :
    (LExpr.bin (.ar .mul) (.var 0) (.const i32 2147483647) : LExpr bareNames 6).eval bareΓ (fun _ => 3) =
      .thrown .positive_overflow_error ∧
    (bareE (LExpr.bin (.ar .mul) (.var 0) (.const i32 2147483647) : LExpr bareNames 6)).eval (fun i => bareTy (bareΓ i))
      (fun _ => 3) = .fault .ub := by
  decide +kernel

end
end Verif.Props
