import Verif.SafeSpec

/-!
Vocabulary for property C77 (result types are no wider than the operands require). Nothing here mentions the code.
-/

namespace Verif.Spec

/-- `m` is the least value of `f` on operands of the types `T` and `U` -/
def Least (f : Int → Int → Int) (T U : Opd) (m : Int) : Prop :=
  (∃ t u, T.Has t ∧ U.Has u ∧ f t u = m) ∧ ∀ t u, T.Has t → U.Has u → m ≤ f t u

/-- `m` is the greatest value of `f` on operands of the types `T` and `U` -/
def Greatest (f : Int → Int → Int) (T U : Opd) (m : Int) : Prop :=
  (∃ t u, T.Has t ∧ U.Has u ∧ f t u = m) ∧ ∀ t u, T.Has t → U.Has u → f t u ≤ m

/-- The safe type `S` is as narrow as it can be as the type of the results of `f` computed in `R`: it is bounded by the least
and the greatest result; the limit of `R` takes the place of a result that `R` does not represent. -/
def TightFor (R : ITy) (f : Int → Int → Int) (T U S : Opd) : Prop :=
  S.kind = .safe ∧ S.base = R ∧ ∃ m M, Least f T U m ∧ Greatest f T U M ∧
    S.lo = (if R.In m then m else R.min) ∧ S.hi = (if R.In M then M else R.max)

/-- `R` is the smallest type of its signedness that represents every result of `f` -/
def SmallestFor (R : ITy) (f : Int → Int → Int) (T U : Opd) : Prop :=
  (∀ t u, T.Has t → U.Has u → R.In (f t u)) ∧
  ∀ S : ITy, S.signed = R.signed → (∀ t u, T.Has t → U.Has u → S.In (f t u)) → R.lg ≤ S.lg

end Verif.Spec
