import Verif.BlameSpec

/-!
Specification vocabulary for C89: the outcome of a single operation, and when its values fit.
-/

namespace Verif.Spec
section
variable [Arch]

/-- forget the value -/
def void {α : Type} : Out α → Out Unit
  | .ret _ => .ret ()
  | .thrown e => .thrown e
  | .fault k => .fault k

/-- the outcome of an operation, without its value -/
def Event.out {N : Names} : Event N → Out Unit
  | .bin o T U t u => void (pBinVal o T U t u)
  | .neg T t => void (negValOf T t)
  | .conv S T t => void (convTo S T t)
  | .cmp o T U t u => void (pCompare o T U t u)
  | .truth T t => void (toBool T.ep T.opd t)
  | .input T old s => (inputStep T old s).1
  | .output T t => void (outputStep T t)

/-- an exception -/
def isThrown {α : Type} : Out α → Bool
  | .thrown _ => true
  | _ => false

/-- not an exception and not a value -/
def isFault {α : Type} : Out α → Bool
  | .fault _ => true
  | _ => false

/-- the operation throws an exception -/
def Event.throws {N : Names} (ev : Event N) : Bool := isThrown ev.out

/-- How the operations `l` and the outcome `o` of what they are the operations of belong together, where `k` exceptions have been
caught on the way: every exception is thrown by one of the operations, and is either caught or the outcome; an exception or fault
that is the outcome is the one of the last operation (but what does not compile may do so for a reason that is not
an operation); no other operation has a fault. -/
def Explains {N : Names} {α : Type} (l : List (Event N)) (k : Nat) (o : Out α) : Prop :=
  l.countP Event.throws = k + (if isThrown o then 1 else 0) ∧
  match o with
  | .ret _ => ∀ ev ∈ l, isFault ev.out = false
  | .thrown x => ∃ l' ev, l = l' ++ [ev] ∧ ev.out = .thrown x ∧ ∀ ev ∈ l', isFault ev.out = false
  | .fault j => (j = .illFormed ∧ ∀ ev ∈ l, isFault ev.out = false) ∨
      ∃ l' ev, l = l' ++ [ev] ∧ ev.out = .fault j ∧ ∀ ev ∈ l', isFault ev.out = false

/-- `t op u` fits the type `R` in which it is computed. See `TyFits`; bitwise operators discard what does not fit; quotients and
remainders are computed in a type that is possibly larger, see `QuotFits` and `RemFits`; a type with
zero as its only value may be shifted by any count if the check is left out. -/
def SafeFits (R : ITy) (o : Op2) (T U : Opd) (t u : Int) : Prop :=
  match o with
  | .bit _ => True
  | .ar .div => QuotFits R T U t u
  | .ar .mod => RemFits R T U t u
  | .shl => TyFits R .shl T U t u ∨ (T.lo = 0 ∧ T.hi = 0 ∧ ShlUnchecked R T U)
  | o => TyFits R o T U t u

/-- The values of an operation fit: the operands and result of an operator of the library the type it is computed in; the value
converted by the library the type it is converted to; the operands of a comparison of the library the type they are
compared in; what is converted to `bool` is zero or one; what is read is a number within the range (not written with a
minus sign if the type is unsigned and not a character type) from a stream without errors. There is no condition on operations of the language. -/
def Event.Fits {N : Names} : Event N → Prop
  | .bin o T U t u => (T.isSafe || U.isSafe) = true → ∀ q R, common T.pr U.pr = .ret q →
      (N.prom q).result (opName o) T.opd U.opd = .ret R → SafeFits R o T.opd U.opd t u
  | .neg T t => T.opd.kind = .safe → BinFits (.ar .sub) (PTy.builtin tInt) T 0 t
  | .conv S T t => (S.isSafe || T.isSafe) = true → S.opd.Has t
  | .cmp o T U t u => (T.isSafe || U.isSafe) = true → ∀ q R, common T.pr U.pr = .ret q →
      cmpType (N.prom q) o T.opd U.opd = .ret R → CmpFits R o T.opd U.opd t u
  | .truth T t => T.isSafe = true → t = 0 ∨ t = 1
  | .input T _ s => T.isSafe = true → s.eof = false ∧ s.fail = false ∧
      ∃ neg k rest, NumberAt s.buf neg k rest ∧ T.opd.Has k ∧ (T.opd.base.signed = false → T.opd.base.lg ≠ 0 → neg = false)
  | .output _ _ => True

end
end Verif.Spec
