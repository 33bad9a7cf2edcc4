import Verif.Cpp

/-! `safe_compare.hpp` (integer overloads) -/

namespace Verif.SafeCompare
section
variable [Arch]

/-- safe_compare.hpp:28-80 `less_than` -/
def lessThan (T U : ITy) (t u : Int) : Bool :=
  match T.signed, U.signed with
  | true, true => cLt T U t u
  | false, false => cLt T U t u
  | false, true => if cLt U tInt u 0 then false else cLt T U.toUnsigned t (conv U.toUnsigned u)
  | true, false => if cLt T tInt t 0 then true else cLt T.toUnsigned U (conv T.toUnsigned t) u

/-- safe_compare.hpp:91-94 -/
def greaterThan (T U : ITy) (t u : Int) : Bool := lessThan U T u t
/-- safe_compare.hpp:96-99 -/
def lessThanEqual (T U : ITy) (t u : Int) : Bool := ! greaterThan T U t u
/-- safe_compare.hpp:101-104 -/
def greaterThanEqual (T U : ITy) (t u : Int) : Bool := ! lessThan T U t u

/-- safe_compare.hpp:106-160 `equal` -/
def equal (T U : ITy) (t u : Int) : Bool :=
  match T.signed, U.signed with
  | true, true => cEq T U t u
  | false, false => cEq T U t u
  | false, true => if cLt U tInt u 0 then false else cEq T U.toUnsigned t (conv U.toUnsigned u)
  | true, false => if cLt T tInt t 0 then false else cEq T.toUnsigned U (conv T.toUnsigned t) u

/-- safe_compare.hpp:171-174 -/
def notEqual (T U : ITy) (t u : Int) : Bool := ! equal T U t u

end
end Verif.SafeCompare
