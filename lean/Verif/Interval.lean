import Verif.CROps

/-!
`interval.hpp`. The comparison operators of the element type are a parameter `Cmp` for the predicates, which
are used both on built-in integers and on `checked_result`; the arithmetic operators are used (and modelled)
on `checked_result` only.
-/

namespace Verif

/-- interval.hpp:26-75 `interval<R>`; interval.hpp:30-37: the constructor does not check `l <= u`. -/
structure Itv (α : Type) where
  l : α
  u : α
  deriving DecidableEq, Repr

/-- the comparison operators of the element type -/
structure Cmp (α : Type) where
  lt : α → α → T3
  le : α → α → T3
  gt : α → α → T3
  ge : α → α → T3
  eq : α → α → T3

section
variable [Arch]

/-- comparison of built-in integers of one type -/
def intCmp (T : ITy) : Cmp Int where
  lt a b := T3.ofBool (cLt T T a b)
  le a b := T3.ofBool (cLe T T a b)
  gt a b := T3.ofBool (cGt T T a b)
  ge a b := T3.ofBool (cGe T T a b)
  eq a b := T3.ofBool (cEq T T a b)

/-- comparison of checked results: checked_result_operations.hpp:577-751 -/
def crCmp (R : ITy) : Cmp CR where
  lt := crLt R
  le := crLe R
  gt := crGt R
  ge := crGe R
  eq := crEq R

end

namespace Itv
variable {α : Type} (c : Cmp α)

/-- interval.hpp:53-55 `includes(point)` -/
def includesPt (i : Itv α) (t : α) : T3 := (c.le i.l t).and (c.le t i.u)
/-- interval.hpp:60-62 `includes(interval)` -/
def includes (i t : Itv α) : T3 := (c.ge i.u t.u).and (c.le i.l t.l)
/-- interval.hpp:65-67 `excludes(point)` -/
def excludesPt (i : Itv α) (t : α) : T3 := (c.lt t i.l).or (c.gt t i.u)
/-- interval.hpp:72-74 `excludes(interval)` -/
def excludes (i t : Itv α) : T3 := (c.lt t.u i.l).or (c.lt i.u t.l)

/-- `std::min(a, b)` -/
def stdMin (a b : α) : α := if (c.lt b a).toBool then b else a
/-- `std::max(a, b)` -/
def stdMax (a b : α) : α := if (c.lt a b).toBool then b else a

/-- interval.hpp:182-188 union -/
def union (t u : Itv α) : Itv α := ⟨stdMin c t.l u.l, stdMax c t.u u.u⟩
/-- interval.hpp:190-196 intersection -/
def inter (t u : Itv α) : Itv α := ⟨stdMax c t.l u.l, stdMin c t.u u.u⟩
/-- interval.hpp:198-202 `intersect` -/
def intersect (t u : Itv α) : T3 := (c.ge t.u u.l).or (c.le t.l u.u)
/-- interval.hpp:204-217 `operator<` -/
def lt (t u : Itv α) : T3 :=
  if (c.lt t.u u.l).toBool then .tt else if (c.gt t.l u.u).toBool then .ff else .ind
/-- interval.hpp:219-232 `operator>` -/
def gt (t u : Itv α) : T3 :=
  if (c.gt t.l u.u).toBool then .tt else if (c.lt t.u u.l).toBool then .ff else .ind
/-- interval.hpp:234-241 `operator==` (returns `bool`) -/
def eq (t u : Itv α) : Bool := ((c.eq t.l u.l).and (c.eq t.u u.u)).toBool
/-- interval.hpp:243-249 `operator!=` -/
def ne (t u : Itv α) : Bool := !(eq c t u)
/-- interval.hpp:251-257 `operator<=` -/
def le (t u : Itv α) : T3 := (gt c t u).not
/-- interval.hpp:259-265 `operator>=` -/
def ge (t u : Itv α) : T3 := (lt c t u).not
end Itv

section
variable [Arch]

/-- `*i < *minimum` in `minmax`: contextual conversion of the tribool to bool -/
def crLtB (R : ITy) (a b : CR) : Bool := (crLt R a b).toBool

/-- utility.hpp:216-230 on four checked results, converted to an interval (interval.hpp:38-42) -/
def minmax4 (R : ITy) (a b c d : CR) : Out (Itv CR) := do
  let p ← minmax (crLtB R) [a, b, c, d]
  .ret ⟨p.1, p.2⟩

/-- interval.hpp:101-105 `operator+` -/
def itvAdd (R : ITy) (t u : Itv CR) : Out (Itv CR) := do
  let a ← crAdd R t.l u.l
  let b ← crAdd R t.u u.u
  .ret ⟨a, b⟩

/-- interval.hpp:107-111 `operator-` -/
def itvSub (R : ITy) (t u : Itv CR) : Out (Itv CR) := do
  let a ← crSub R t.l u.u
  let b ← crSub R t.u u.l
  .ret ⟨a, b⟩

/-- the four corner operations shared by interval.hpp:113-180 -/
def corners (R : ITy) (op : CR → CR → Out CR) (t u : Itv CR) : Out (Itv CR) := do
  let a ← op t.l u.l
  let b ← op t.l u.u
  let c ← op t.u u.l
  let d ← op t.u u.u
  minmax4 R a b c d

/-- interval.hpp:113-124 `operator*` -/
def itvMul (R : ITy) (t u : Itv CR) : Out (Itv CR) := corners R (crMul R) t u

/-- interval.hpp:128-139 `operator/` -/
def itvDiv (R : ITy) (t u : Itv CR) : Out (Itv CR) := do
  assertThat (u.excludesPt (crCmp R) (.ok 0)).toBool
  corners R (crDiv R) t u

/-- interval.hpp:143-154 `operator%` -/
def itvMod (R : ITy) (t u : Itv CR) : Out (Itv CR) := do
  assertThat (u.excludesPt (crCmp R) (.ok 0)).toBool
  corners R (crMod R) t u

/-- interval.hpp:156-167 `operator<<` -/
def itvShl (R : ITy) (t u : Itv CR) : Out (Itv CR) := corners R (crShl R) t u

/-- interval.hpp:169-180 `operator>>` -/
def itvShr (R : ITy) (t u : Itv CR) : Out (Itv CR) := corners R (crShr R) t u

end
end Verif
