import Verif.Stream
import Verif.Checked

/-!
Text output for people: `checked_result` (checked_result_operations.hpp:1125-1152), intervals (interval.hpp:273-300), values with the
range of their type (range_value.hpp:30-45) and the manipulator `safe_format` of the examples (example/safe_format.hpp:26-59).
The texts are for decimal base, as in `Stream.lean`, except that of `result_display` (range_value.hpp:47-69), which switches to hexadecimal
and then to decimal (and leaves the stream so). The input operators for `checked_result` (1154-1186) read into rvalues and cannot be instantiated.
-/

namespace Verif

/-- checked_result_operations.hpp:1125-1152 `os << r` for a `checked_result<R>` that carries the message `msg` if it is an error: the flag
as a digit, then the value (for `signed char` as a number, for `unsigned char` as a character) or the text of the error -/
def crText (R : ITy) (msg : List Char) : CR → Out (List Char)
  | .ok v => .ret ('0' :: if R.lg = 0 ∧ R.signed = false then [Char.ofNat v.toNat] else printInt v)
  | .err e => do
    let m ← message (makeErrorCode e)
    .ret ('1' :: (m.toList ++ ':' :: msg))

/-- interval.hpp:273-300 `os << i`; character types are converted to numbers -/
def itvText (l u : Int) : List Char := '[' :: (printInt l ++ ',' :: (printInt u ++ [']']))

section
variable [Arch]

/-- range_value.hpp:33-45 `os << make_range_value(t)` for a safe `t` of type `T`: `make_interval<T>()` (interval.hpp:48-51, 78-81) has the limits
of the type, which are safe values, and the value follows -/
def rangeText (T : Opd) (t : Int) : List Char :=
  '[' :: (output T T.lo ++ ',' :: (output T T.hi ++ ']' :: output T t))

/-- safe_format.hpp:26-53; `name` is the name of the base type -/
def safeFormat (name : List Char) (T : Opd) (t : Int) : List Char :=
  '<' :: (name ++ '>' :: '[' :: (output T T.lo ++ ',' :: (output T T.hi ++ ']' :: ' ' :: '=' :: ' ' :: output T t)))

/-- one hexadecimal digit -/
def hexDigit (d : Nat) : Char := if d < 10 then Char.ofNat (48 + d) else Char.ofNat (87 + d)

/-- the hexadecimal digits of `n < f` -/
def hexDigits : Nat → Nat → List Char
  | 0, _ => []
  | f + 1, n => if n < 16 then [hexDigit n] else hexDigits f (n / 16) ++ [hexDigit (n % 16)]

/-- `os << std::hex << v` for `v` of the type `R` that is not a character type: the number is converted to the unsigned type of the same width
([facet.num.put.virtuals]: conversion specifier `%x`) -/
def printHex (R : ITy) (v : Int) : List Char := let n := (conv ⟨false, R.lg⟩ v).toNat; hexDigits (n + 1) n

/-- safe_base_operations.hpp:1785-1797 `output` on a stream with the flag `hex` -/
def outputHex (T : Opd) (t : Int) : List Char :=
  printHex (uac tInt T.base) (conv (uac tInt T.base) (if isCharTy T.base then conv tInt t else t))

/-- range_value.hpp:60-69 `os << make_result_display(t)` for a safe `t` of type `T` -/
def resultDisplay (T : Opd) (t : Int) : List Char :=
  '[' :: (outputHex T T.lo ++ ',' :: (outputHex T T.hi ++ ']' :: (outputHex T t ++ '(' :: (output T t ++ [')']))))

end
end Verif
