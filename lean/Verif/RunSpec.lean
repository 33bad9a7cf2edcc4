import Verif.QuietSpec
import Verif.Props.Input

/-!
Specification vocabulary for C98: the meaning of programs with exception handlers over the integers, and a logic for
proving programs correct.
-/

namespace Verif.Spec
section
variable [Arch]

/-- statements that store or write one value -/
def Basic {N : Names} : LStmt N n → Prop
  | .skip => True
  | .assign _ _ => True
  | .opAssign _ _ _ => True
  | .inc _ => True
  | .dec _ => True
  | .output _ => True
  | _ => False

/-- the state of a program without what only the machine has: variables, input stream (characters and state), output -/
structure RState (n : Nat) where
  st : Fin n → Int
  inp : IStream
  out : List Char

/-- the state as in C60: the state bits of the input stream are forgotten -/
def RState.ints (s : RState n) : IState n := ⟨s.st, s.inp.buf, s.out⟩

/-- new variables and new output -/
def RState.put (s : RState n) (t : IState n) : RState n := ⟨t.st, s.inp, t.out⟩

/-- a variable and the input stream after reading -/
def RState.read (s : RState n) (i : Fin n) (v : Int) (r : IStream) : RState n := ⟨fun j => if j = i then v else s.st j, r, s.out⟩

/-- what the counter of caught exceptions does not count -/
def seen (s : LState n) : RState n := ⟨s.st, s.inp, s.out⟩

/-- reading an integer of the type `B` into a variable with the value `old`: whether it succeeds, the value and the stream afterwards -/
inductive Reads (B : ITy) (old : Int) (s : IStream) : Bool → Int → IStream → Prop
  /-- a number of the type -/
  | number : s.eof = false → s.fail = false → NumberAt s.buf sg k rest → (B.signed = false → sg = false) → B.In k →
      Reads B old s true k ⟨rest, rest.isEmpty, false⟩
  /-- another number: the closest value of the type is stored -/
  | far : s.eof = false → s.fail = false → NumberAt s.buf sg k rest → (B.signed = false → sg = false) → ¬ B.In k →
      Reads B old s false (nearest B k) ⟨rest, rest.isEmpty, true⟩
  /-- the stream has ended or failed before -/
  | dead : s.eof = true ∨ s.fail = true → Reads B old s false old ⟨s.buf, s.eof, true⟩
  /-- only white space is left -/
  | ended : s.eof = false → s.fail = false → (∀ c ∈ s.buf, isWs c = true) → Reads B old s false old ⟨[], true, true⟩
  /-- a minus sign before an unsigned number -/
  | minus : s.eof = false → s.fail = false → B.signed = false → s.buf = ws ++ '-' :: r → (∀ c ∈ ws, isWs c = true) →
      Reads B old s false old ⟨'-' :: r, false, true⟩
  /-- other text: zero is stored -/
  | text : s.eof = false → s.fail = false → TextLeft s.buf rest → (B.signed = false → ¬ MinusFirst s.buf) →
      Reads B old s false 0 ⟨rest, rest.isEmpty, true⟩

/-- The meaning of a program over the integers: `Runs Γ p s b s'` if `p` started in `s` ends in `s'`, normally (`b = true`) or by an
exception (`b = false`). A statement whose values all fit does what it says; one with a value that does not fit changes nothing and
throws; reading is as in `Reads`; the rest is the meaning of sequence, condition, loop and handler. -/
inductive Runs {N : Names} {n : Nat} (Γ : Fin n → PTy N) : LStmt N n → RState n → Bool → RState n → Prop
  | basic : Basic p → SFits Γ 1 p s.ints → iexec 1 p s.ints = some (some t) → Runs Γ p s true (s.put t)
  | basicExc : Basic p → ¬ SFits Γ 1 p s.ints → Runs Γ p s false s
  | input : Reads (Γ i).opd.base (s.st i) s.inp r v t → Runs Γ (.input i) s r (s.read i v t)
  | seq : Runs Γ a s true s1 → Runs Γ b s1 r s' → Runs Γ (.seq a b) s r s'
  | seqExc : Runs Γ a s false s1 → Runs Γ (.seq a b) s false s1
  | iteTrue : CFits Γ s.st c → icond s.st c = some true → Runs Γ a s r s' → Runs Γ (.ite c a b) s r s'
  | iteFalse : CFits Γ s.st c → icond s.st c = some false → Runs Γ b s r s' → Runs Γ (.ite c a b) s r s'
  | iteExc : ¬ CFits Γ s.st c → Runs Γ (.ite c a b) s false s
  | whileTrue : CFits Γ s.st c → icond s.st c = some true → Runs Γ a s true s1 → Runs Γ (.while c a) s1 r s' →
      Runs Γ (.while c a) s r s'
  | whileBody : CFits Γ s.st c → icond s.st c = some true → Runs Γ a s false s1 → Runs Γ (.while c a) s false s1
  | whileFalse : CFits Γ s.st c → icond s.st c = some false → Runs Γ (.while c a) s true s
  | whileExc : ¬ CFits Γ s.st c → Runs Γ (.while c a) s false s
  | try : Runs Γ a s true s' → Runs Γ (.tryCatch a b) s true s'
  | catch : Runs Γ a s false s1 → Runs Γ b s1 r s' → Runs Γ (.tryCatch a b) s r s'

/-- the outcome of an execution that was accepted by the compiler: normal, or by an exception -/
def Matches : Bool → Out Unit → Prop
  | true, o => o = .ret ()
  | false, o => ∃ e, o = .thrown e

/-! ### a logic for programs -/

/-- `Hoare Γ P p Q E`: derivable in the following rules. Started in a state with `P`, the program ends with `Q`, or by an exception
with `E` (partial correctness). -/
inductive Hoare {N : Names} {n : Nat} (Γ : Fin n → PTy N) :
    (RState n → Prop) → LStmt N n → (RState n → Prop) → (RState n → Prop) → Prop
  /-- `Q` holds of the new state if the values fit, `E` of the old state if they do not -/
  | basic {p : LStmt N n} {Q E : RState n → Prop} : Basic p →
      Hoare Γ (fun s => (SFits Γ 1 p s.ints → ∀ t, iexec 1 p s.ints = some (some t) → Q (s.put t)) ∧ (¬ SFits Γ 1 p s.ints → E s)) p Q E
  | input {Q E : RState n → Prop} {i : Fin n} : Hoare Γ (fun s => ∀ b v t, Reads (Γ i).opd.base (s.st i) s.inp b v t →
      if b then Q (s.read i v t) else E (s.read i v t)) (.input i) Q E
  | seq : Hoare Γ P a R E → Hoare Γ R b Q E → Hoare Γ P (.seq a b) Q E
  | ite {P Q E : RState n → Prop} {c : LCond N n} : Hoare Γ (fun s => P s ∧ CFits Γ s.st c ∧ icond s.st c = some true) a Q E →
      Hoare Γ (fun s => P s ∧ CFits Γ s.st c ∧ icond s.st c = some false) b Q E →
      Hoare Γ (fun s => P s ∧ (¬ CFits Γ s.st c → E s)) (.ite c a b) Q E
  | while {I E : RState n → Prop} {c : LCond N n} :
      Hoare Γ (fun s => I s ∧ CFits Γ s.st c ∧ icond s.st c = some true) a (fun s => I s ∧ (¬ CFits Γ s.st c → E s)) E →
      Hoare Γ (fun s => I s ∧ (¬ CFits Γ s.st c → E s)) (.while c a)
        (fun s => I s ∧ CFits Γ s.st c ∧ icond s.st c = some false) E
  /-- what holds when `a` throws is what the handler starts with -/
  | tryCatch : Hoare Γ P a Q R → Hoare Γ R b Q E → Hoare Γ P (.tryCatch a b) Q E
  | conseq {P P' Q Q' E E' : RState n → Prop} : (∀ s, P' s → P s) → Hoare Γ P p Q E → (∀ s, Q s → Q' s) → (∀ s, E s → E' s) → Hoare Γ P' p Q' E'

/-- `HoareT Γ P p Q E`: the same for total correctness. Started in a state with `P` the program ends. Every round of a loop decreases a
number. -/
inductive HoareT {N : Names} {n : Nat} (Γ : Fin n → PTy N) :
    (RState n → Prop) → LStmt N n → (RState n → Prop) → (RState n → Prop) → Prop
  | basic {p : LStmt N n} {Q E : RState n → Prop} : Basic p →
      HoareT Γ (fun s => (SFits Γ 1 p s.ints → ∃ t, iexec 1 p s.ints = some (some t) ∧ Q (s.put t)) ∧ (¬ SFits Γ 1 p s.ints → E s)) p Q E
  | input {Q E : RState n → Prop} {i : Fin n} : HoareT Γ (fun s => ∃ b v t, Reads (Γ i).opd.base (s.st i) s.inp b v t ∧
      if b then Q (s.read i v t) else E (s.read i v t)) (.input i) Q E
  | seq : HoareT Γ P a R E → HoareT Γ R b Q E → HoareT Γ P (.seq a b) Q E
  | ite {P Q E : RState n → Prop} {c : LCond N n} : HoareT Γ (fun s => P s ∧ CFits Γ s.st c ∧ icond s.st c = some true) a Q E →
      HoareT Γ (fun s => P s ∧ CFits Γ s.st c ∧ icond s.st c = some false) b Q E →
      HoareT Γ (fun s => P s ∧ (¬ CFits Γ s.st c → E s) ∧ (CFits Γ s.st c → icond s.st c ≠ none)) (.ite c a b) Q E
  | while {I : Nat → RState n → Prop} {E : RState n → Prop} {c : LCond N n} :
      (∀ k s, I k s → (¬ CFits Γ s.st c → E s) ∧ (CFits Γ s.st c → icond s.st c ≠ none)) →
      (∀ k, HoareT Γ (fun s => I k s ∧ CFits Γ s.st c ∧ icond s.st c = some true) a (fun s => ∃ j, j < k ∧ I j s) E) →
      HoareT Γ (fun s => ∃ k, I k s) (.while c a) (fun s => (∃ k, I k s) ∧ CFits Γ s.st c ∧ icond s.st c = some false) E
  | tryCatch : HoareT Γ P a Q R → HoareT Γ R b Q E → HoareT Γ P (.tryCatch a b) Q E
  | conseq {P P' Q Q' E E' : RState n → Prop} : (∀ s, P' s → P s) → HoareT Γ P p Q E → (∀ s, Q s → Q' s) → (∀ s, E s → E' s) →
      HoareT Γ P' p Q' E'

/-- what a triple says about the executions of the model: whenever an execution from a state within the ranges ends,
accepted by the compiler, it ends normally in a state with `Q`, or by an exception in a state with `E` -/
def Correct {N : Names} {n : Nat} (Γ : Fin n → PTy N) (P : RState n → Prop) (p : LStmt N n) (Q E : RState n → Prop) : Prop :=
  ∀ (f : Nat) (s s' : LState n) (o : Out Unit), Ranged Γ s.st → P (seen s) → p.exec Γ f s = some (o, s') →
    (o = .ret () ∧ Q (seen s')) ∨ ((∃ e, o = .thrown e) ∧ E (seen s')) ∨ o = .fault .illFormed

/-- what a triple of the second kind says: every execution from a state within the ranges ends, in one of these ways -/
def TotallyCorrect {N : Names} {n : Nat} (Γ : Fin n → PTy N) (P : RState n → Prop) (p : LStmt N n) (Q E : RState n → Prop) : Prop :=
  ∀ s : LState n, Ranged Γ s.st → P (seen s) → ∃ f s' o, p.exec Γ f s = some (o, s') ∧
    ((o = .ret () ∧ Q (seen s')) ∨ ((∃ e, o = .thrown e) ∧ E (seen s')) ∨ o = .fault .illFormed)

end
end Verif.Spec
