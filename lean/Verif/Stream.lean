import Verif.Safe

/-!
Stream input and output of safe values: `safe_base_operations.hpp:1774-1847`, called by `operator<<` and `operator>>`
(safe_base.hpp:131-166).

The standard library parts (trusted, not in /repo) follow [istream.formatted], [istream.sentry], [facet.num.get.virtuals]
and [facet.num.put.virtuals] for decimal base, `skipws` set, the classic locale, and streams that do not throw.
A stream holds the characters not yet extracted and the two state bits. `bad` is identified with `fail`.
The character types recognised by the code (`signed char`, `unsigned char`) are the types of width 8; plain `char` and
`wchar_t` are not modelled.
-/

namespace Verif

/-! ### standard library -/

/-- an input stream -/
structure IStream where
  buf : List Char
  eof : Bool
  fail : Bool
  deriving DecidableEq, Repr

/-- white space in the classic locale -/
def isWs (c : Char) : Bool := c == ' ' || (9 ≤ c.toNat && c.toNat ≤ 13)

/-- a decimal digit -/
def isDig (c : Char) : Bool := 48 ≤ c.toNat && c.toNat ≤ 57

/-- the number written by a list of digits -/
def digitsVal (ds : List Char) : Nat := ds.foldl (fun a c => 10 * a + (c.toNat - 48)) 0

/-- [istream.sentry]: skips white space; the flag says whether the stream is good -/
def IStream.sentry (s : IStream) : IStream × Bool :=
  if s.eof || s.fail then ({ s with fail := true }, false)
  else
    let b := s.buf.dropWhile isWs
    if b.isEmpty then (⟨[], true, true⟩, false) else ({ s with buf := b }, true)

/-- `is >> std::ws`; no characters left sets eofbit only -/
def IStream.ws (s : IStream) : IStream :=
  if s.eof || s.fail then { s with fail := true }
  else
    let b := s.buf.dropWhile isWs
    if b.isEmpty then ⟨[], true, false⟩ else { s with buf := b }

/-- `is.peek()`: `none` is end of file -/
def IStream.peek (s : IStream) : IStream × Option Char :=
  if s.eof || s.fail then ({ s with fail := true }, none)
  else
    match s.buf with
    | [] => ({ s with eof := true }, none)
    | c :: _ => (s, some c)

/-- stage 2: sign, digits, characters left -/
def scan (b : List Char) : Bool × List Char × List Char :=
  match b with
  | '-' :: r => (true, r.takeWhile isDig, r.dropWhile isDig)
  | '+' :: r => (false, r.takeWhile isDig, r.dropWhile isDig)
  | r => (false, r.takeWhile isDig, r.dropWhile isDig)

/-- stage 3: value stored and failure. A value that is too large or too small is replaced by the nearest one of the type; a
negative numeral read into an unsigned type wraps. -/
def stage3 (V : ITy) (neg : Bool) (n : Nat) : Int × Bool :=
  if V.signed then
    let v : Int := if neg then -n else n
    if v < V.min then (V.min, true) else if V.max < v then (V.max, true) else (v, false)
  else if V.max < n then (V.max, true)
  else (conv V (if neg then -n else n), false)

/-- `is >> v` for a variable of built-in type `V` holding `old`. If the sentry fails the variable is unchanged; if there
are no digits it becomes 0. -/
def IStream.extract {α : Type} (V : ITy) (store : Int → α) (old : α) (s : IStream) : α × IStream :=
  let (s, ok) := s.sentry
  if ok then
    let (neg, ds, rest) := scan s.buf
    if ds.isEmpty then (store 0, ⟨rest, rest.isEmpty, true⟩)
    else
      let (v, bad) := stage3 V neg (digitsVal ds)
      (store v, ⟨rest, rest.isEmpty, bad⟩)
  else (old, s)

/-- the digits of a number; `f` bounds the recursion -/
def decDigits : Nat → Nat → List Char
  | 0, _ => []
  | f + 1, n => if n < 10 then [Char.ofNat (48 + n)] else decDigits f (n / 10) ++ [Char.ofNat (48 + n % 10)]

/-- `os << v` for an integer type that is not a character type -/
def printInt (v : Int) : List Char :=
  if v < 0 then '-' :: decDigits (v.natAbs + 1) v.natAbs else decDigits (v.natAbs + 1) v.natAbs

/-- `is >> c` for a variable of a built-in character type `V` holding `old`: white space is skipped and one character is read. If there
is none the variable is unchanged. Characters are bytes; other values are taken modulo the number of values of `V`. -/
def IStream.extractChar (V : ITy) (old : Int) (s : IStream) : Int × IStream :=
  let (s, ok) := s.sentry
  if ok then
    match s.buf with
    | [] => (old, s)
    | c :: rest => (conv V c.toNat, { s with buf := rest })
  else (old, s)

/-- `os << c` for a character type: the one character with this code -/
def printChar (v : Int) : List Char := [Char.ofNat (v % 256).toNat]

/-! ### the library -/

section
variable [Arch]

/-- the character types recognised in safe_base_operations.hpp:1789-1791 and 1813-1815 -/
def isCharTy (B : ITy) : Bool := B.lg == 0

/-- safe_base_operations.hpp:1785-1797 `output`: the two branches of `?:` have the common type of `int` and `T` -/
def output (T : Opd) (t : Int) : List Char :=
  printInt (conv (uac tInt T.base) (if isCharTy T.base then conv tInt t else t))

/-- the compile time part of `validated_cast(x)` with `x` of type `T` (safe_base_operations.hpp:129-147) -/
def validateStatic (R : ITy) (mn mx : Int) (p : EP) (T : Opd) : Out Unit := do
  let ti ← castItv R T
  let ri : Itv CR := ⟨.ok mn, .ok mx⟩
  if (ri.excludes (crCmp R) ti).toBool then .fault .illFormed
  else if (ri.includes (crCmp R) ti).toBool then .ret ()
  else if p.traps (castErrs R T.base) then .fault .illFormed
  else .ret ()

/-- what has to compile for `input`: both branches of the ordinary `if` (safe_base_operations.hpp:1817-1819 and
1835-1845) -/
def inputStatic (p : EP) (T : Opd) : Out Unit := do
  validateStatic T.base T.lo T.hi p (Opd.ofBuiltin tInt)
  validateStatic T.base T.lo T.hi p (Opd.ofBuiltin T.base)
  if p.traps [.domain_error] then .fault .illFormed else .ret ()

/-- safe_base_operations.hpp:1817-1819: `int x; is >> x; m_t = validated_cast(x);`. `x` is not initialised. -/
def inputChar (p : EP) (T : Opd) (old : Int) (s : IStream) : Out Unit × Int × IStream :=
  let (x, s) := s.extract tInt some none
  match x with
  | none => (.fault .ub, old, s)
  | some x =>
    match validate T.base T.lo T.hi p (Opd.ofBuiltin tInt) x with
    | .ret v => (.ret (), v, s)
    | .thrown e => (.thrown e, old, s)
    | .fault f => (.fault f, old, s)

/-- safe_base_operations.hpp:1822-1834: for unsigned types a numeral that starts with '-' sets failbit -/
def inputPrep (T : Opd) (s : IStream) : IStream :=
  if T.base.signed then s
  else
    let (s, c) := s.ws.peek
    if c = some '-' then { s with fail := true } else s

/-- safe_base_operations.hpp:1835-1845: `is >> m_t` writes the member; a failure is dispatched; otherwise the value is
validated and the validated value discarded. -/
def inputInt (p : EP) (T : Opd) (old : Int) (s : IStream) : Out Unit × Int × IStream :=
  let (m, s) := (inputPrep T s).extract T.base id old
  if s.fail then (dispatch p .domain_error, m, s)
  else
    match validate T.base T.lo T.hi p (Opd.ofBuiltin T.base) m with
    | .ret _ => (.ret (), m, s)
    | .thrown e => (.thrown e, m, s)
    | .fault f => (.fault f, m, s)

/-- safe_base_operations.hpp:1810-1847 `input`: the outcome, the value of the member afterwards (also when an exception is
thrown) and the stream -/
def input (p : EP) (T : Opd) (old : Int) (s : IStream) : Out Unit × Int × IStream :=
  match inputStatic p T with
  | .ret _ => if isCharTy T.base then inputChar p T old s else inputInt p T old s
  | .thrown e => (.thrown e, old, s)
  | .fault f => (.fault f, old, s)

end
end Verif
