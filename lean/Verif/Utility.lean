import Verif.Cpp

/-! `utility.hpp` -/

namespace Verif
section
variable [Arch]

/-- utility.hpp:121 macro `LT(n)` : sixteen copies -/
def LT16 (n : Int) : List Int := List.replicate 16 n

/-- utility.hpp:122-126 `LogTable256` -/
def logTable256 : List Int :=
  [-1, 0, 1, 1, 2, 2, 2, 2, 3, 3, 3, 3, 3, 3, 3, 3]
  ++ LT16 4 ++ LT16 5 ++ LT16 5 ++ LT16 6 ++ LT16 6 ++ LT16 6 ++ LT16 6
  ++ LT16 7 ++ LT16 7 ++ LT16 7 ++ LT16 7 ++ LT16 7 ++ LT16 7 ++ LT16 7 ++ LT16 7

/-- utility.hpp:112-128 `ilog2_detail::ilog2<N>` with `N = 8 * 2^k`, argument of the unsigned type with `N`
bits. Line 115: the shift count `N/2` is below the width, so the shift is a division. An index
outside the table (impossible for 8 bit arguments) is undefined behaviour. -/
def ilog2D : Nat → Int → Out Int
  | 0, t =>
    match logTable256[t.toNat]? with
    | some v => .ret (conv tUInt v)
    | none => .fault .ub
  | k + 1, t =>
    let n2 : Nat := 8 * 2 ^ k
    let upper := conv ⟨false, k⟩ (t / 2 ^ n2)
    let lower := conv ⟨false, k⟩ t
    if upper = 0 then ilog2D k lower
    else do
      let r ← ilog2D k upper
      .ret (conv tUInt (n2 + r))

/-- utility.hpp:132-145 `ilog2` -/
def ilog2 (T : ITy) (t : Int) : Out Int :=
  if cEq T tInt t 0 then .ret 0
  else ilog2D T.lg (conv T.toUnsigned t)

/-- utility.hpp:149-152 `significant_bits`; result type `unsigned int`; note that `~t` has the promoted
type. -/
def significantBits (T : ITy) (t : Int) : Out Int := do
  let r ← if cLt T tInt t 0 then ilog2 (promote T) (cNot T t) else ilog2 T t
  .ret (conv tUInt (1 + r))

/-- utility.hpp:179-184 `max` on `unsigned int` -/
def umax (a b : Int) : Int := if a > b then a else b

/-- boost/integer.hpp (not in /repo) `int_t<N>::least` / `uint_t<N>::least`: the narrowest type of the given
signedness with at least `n` bits; `none` if the machine has none. `k` counts up from the narrowest. -/
def leastLgFrom (n : Int) : Nat → Nat → Option Nat
  | 0, _ => none
  | fuel + 1, k => if n ≤ ((8 * 2 ^ k : Nat) : Int) then some k else leastLgFrom n fuel (k + 1)

def leastType (s : Bool) (n : Int) : Out ITy :=
  match leastLgFrom n (Arch.maxLg + 1) 0 with
  | some k => .ret ⟨s, k⟩
  | none => .fault .illFormed

/-- utility.hpp:188-197 `signed_stored_type<Min, Max>`, `Min` and `Max` of type `intmax_t` -/
def signedStoredType (mn mx : Int) : Out ITy := Out.static do
  let a ← significantBits tIntMax mn
  let b ← significantBits tIntMax mx
  leastType true (conv tUInt (umax a b + 1))

/-- utility.hpp:201-208 `unsigned_stored_type<Min, Max>`, `Min` and `Max` of type `uintmax_t` -/
def unsignedStoredType (_mn mx : Int) : Out ITy := Out.static do
  let b ← significantBits tUIntMax mx
  leastType false b

/-- utility.hpp:238-252 `round_out` -/
def roundOut (T : ITy) (t : Int) : Out Int :=
  if cGe T tInt t 0 then do
    let sb0 ← significantBits T t
    let sb := conv u8 sb0
    if sb < (T.bits : Int) then do
      let a ← cShl T u8 1 sb
      let b ← cSub (promote T) tInt a 1
      .ret (conv T b)
    else .ret T.max
  else do
    let sb0 ← significantBits (promote T) (cNot T t)
    let sb := conv u8 sb0
    if sb < (T.bits : Int) then do
      let a ← cShl T u8 1 sb
      let b ← cSub (promote T) tInt a 1
      .ret (conv T (cNot (promote T) b))
    else .ret T.min

end

/-- utility.hpp:216-230: the loop body of `minmax`: `lt` is the contextual conversion of `<` to bool. -/
def minmaxStep {α : Type} (lt : α → α → Bool) (p : α × α) (i : α) : α × α :=
  if lt i p.1 then (i, p.2) else if lt p.2 i then (p.1, i) else p

/-- utility.hpp:216-230 `minmax` of a list (`assert(l.size() > 0)` on line 219). -/
def minmax {α : Type} (lt : α → α → Bool) : List α → Out (α × α)
  | [] => .fault .assertFail
  | a :: l => .ret ((a :: l).foldl (minmaxStep lt) (a, a))

end Verif
