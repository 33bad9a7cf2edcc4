# Formal model of boost safe_numerics in Lean 4

The code under study is the header library in `/repo/include/boost/safe_numerics`.
It was read as text. Nothing was compiled or run. This file says what is modelled,
how each property is stated and proved, and what has to be trusted.

## 1. Trusted base

* Lean 4.33.0 kernel, and the axioms `propext`, `Classical.choice`, `Quot.sound`.
  No own axioms, no `sorry`, no `native_decide`, no `bv_decide`.
  `Verif/Audit.lean` runs during the build. It collects the axioms of every constant in the namespace
  `Verif` and stops the build if there is any other. `THEOREMS.md` lists the axioms of each property theorem.
* The reading of the C++ source: every model definition cites file and lines.
* The C++ semantics written in `Verif/Cpp.lean`:
  two's complement integers of width 8*2^k, integral promotions, usual arithmetic
  conversions, undefined behaviour on signed overflow, on division by zero,
  on MIN / -1 and MIN % -1, and on bad shift counts. C++14 rule for left shift of signed values
  (negative left operand: undefined; positive: defined when it fits the unsigned counterpart).
  Narrowing conversion to a signed type wraps (implementation defined before C++20; all
  known compilers do this). Right shift of a negative value is arithmetic.
  C79 proves that this agrees with Lean's bit vectors, so only the choice of rules has to be trusted.
* For stream input and output (`Stream.lean`): the model of what `istream >> int` and `ostream << int` do, and of `>>` and `<<`
  for built-in characters (one byte).
* For whole programs (`Lang.lean`): something that does not compile shows up as the outcome `illFormed` when the execution
  reaches it. The model evaluates operands from left to right; C92 proves that this choice does not matter.

## 2. Modelling decisions

* `class Arch` fixes the width of `int` and of `intmax_t`, both arbitrary powers of two
  (int at least 16 bit, intmax at least int and at most 128 bit). Theorems hold for every `Arch`; examples use the
  usual LP64 machine. `bool` and character types as separate types are not modelled; types with
  the same width and signedness (`long`/`long long` on LP64) are identified.
* A typed value is a mathematical `Int` together with its static type (`ITy`).
  Every C++ primitive returns an `Out`: `ret v`, `thrown e`, or `fault f`, where `f` is
  `ub`, `assertFail` or `illFormed` (does not compile). So undefined behaviour is an observable
  outcome that theorems exclude.
* `checked_result<R>` is `CR`: `ok v` or `err e`. Reading the value of an erroneous result is a
  read of the inactive union member: `fault ub`. Message strings are dropped, except in the model
  of the error category texts.
* The template parameter `F` (what to do with an error) is a handler `Err -> Out CR`.
* An exception policy is a record of four actions (throw, ignore, trap), as in
  `exception_policies.hpp`. `trap` is modelled at instantiation: if a function template that mentions
  a trapped error is instantiated, the outcome is `fault illFormed`, whatever the values.
  A handler written by the user (`Act.user`) is described by the codes for which it returns; for all others it throws. Other
  effects of handlers (logging, another type of exception) are not modelled, nor handlers that never come back.
* Operand types (built-in, `safe_base`, literal) are all `Opd`: base type with static bounds.
  Functions of `safe_base_operations.hpp` are modelled generically in the result base type, and the
  three promotion policies then supply that type.
* Compile time evaluation (`constexpr` members) uses the same functions; any fault there is `illFormed`.
* Whole programs: a program names its policies; two policies are the same type exactly when they have the same
  name. Policy resolution (`common_exception_policy`, `common_promotion_policy`, `default_policy`) and the choice
  between operators of safe types and built-in operators (`legal_overload`) are modelled there. Unary ~ is an abbreviation
  there, as in the library; values converted to bool are conditions.
* Floating point: only casts of floating point values to integers, construction from them and the default comparisons are
  modelled (`Float`). Not modelled: floating point arithmetic (`checked_float.hpp`, which no file includes and which cannot
  compile; the integer to float casts of `checked_integer.hpp`, which call a member `F::invoke` that does not exist).
* Examples not modelled: example15.cpp (the overflow happens inside Boost.Rational, not in /repo); example91.cpp with motor1.c, which is in no build
  file and cannot compile: C0, C_MIN, the timer and port registers are declared nowhere.
* Not modelled: the concept checks, `safe_common.hpp` traits plumbing,
  `numeric_limits` members other than min, max, lowest, digits, digits10, is_signed and is_modulo,
  noexcept, constexpr-ness of the user's program, the converting constructor and `operator~` of `checked_result`
  (both mention members that do not exist and cannot be instantiated), `operator==` of `interval` for intervals of `checked_result` (it returns a
  `tribool` as `bool`, to which there is only an explicit conversion), the second pair of stream operators (safe_base_operations.hpp:1403-1420 and
  1559-1576, with result type `lazy_enable_if_c<.., basic_ostream &>`; streaming goes through the friends in safe_base.hpp).

## 3. Files

Model: `Cpp` (C++ integers), `Err` (errors, actions, policies), `Utility`, `SafeCompare`, `Checked`
(checked_integer, checked_default), `CROps` (checked_result_operations), `Interval`, `SafeOps`
(safe_base, safe_base_operations), `Promotion` (native, automatic, cpp), `Safe` (operators with policies),
`Expr` (expressions, variables, histories), `Lit` (literals), `Stream`, `Lang` (whole programs), `Text` (texts of results, intervals, ranges), `Float` (casts from floating point), `Limits` (inherited numeric_limits), `Motor`, `Motor2` (the tutorial programs
example93.cpp and example92.cpp), `Examples` (the other example programs).
Specifications: `Spec`, `SafeSpec`, `ExprSpec`, `LangSpec`, `StreamSpec`, `QuietSpec`, `MotorSpec`, `Motor2Spec`, `ExamplesSpec`, `BareSpec`, `ExactSpec`, `TightSpec`, `PortSpec`, `FloatSpec`, `RunSpec` (programs with handlers over the integers, and the rules for proving them), `BlameSpec` (the operations an execution carries out, and which are known to go right), `TraceSpec` (the outcome of each of them, and when its values fit), `PolicySpec` (a program with other exception policies), `OrderSpec` (executions with operands evaluated in any order), `EndsSpec` (when such an execution ends), `CountSpec` (programs whose loops count), `WidenSpec` (the same program with wider variables), `PromSpec` (the same program with other promotion policies), `AutoSpec` (sums, differences and products on both sides of zero), `MaySpec` (programs over the integers whose statements are free to throw), `ReleaseSpec` (when one exception policy traps wherever it differs from another).
Proofs: `Proofs/*` helper lemmas, `Props/*` property theorems with examples of their hypotheses; theorem names start with
the property id.
Checks: `Conform` compares the model with every expected-result table in /repo/test, `Conform2` with the test programs
there that have no table (intervals, casts, construction, ranges, trapping, custom exceptions) (tests, not proofs; no
difference was found), `Audit` checks axioms.

## 4. Plan per property

Specifications are over `Int`: e.g. "the outcome is `ret (ok (t+u))` if it lies in
[min R, max R], else ...". They do not mention model helpers other than type bounds and outcomes.

| id | modelled | proof plan |
|----|----------|-----------|
| C01 | `cast_impl` four signedness cases with any Min/Max | case analysis over comparison lemmas (C12). Code reports *positive* overflow for unsigned values below Min: `_partial` plus refutation |
| C02-C06 | `checked_operation` function by function with promoted arithmetic | characterise for a generic handler; nonlinear lemmas about truncated division for the full-width multiply |
| C07 | modulus | partial: all pairs except (MIN, MIN); refutation theorem with witness |
| C08 | left_shift | from C11, `t < 2^n` bit-length reasoning |
| C09 | right_shift | partial: excludes shift count = digits for unsigned types at least as wide as int; refutation (undefined behaviour) |
| C10 | bitwise ops through bit vectors | bitwise extensionality |
| C11 | table and halving recursion | induction on the width; table checked completely (`decide` over all 256 entries, a finite table) |
| C12, C43 | safe_compare | conversions are identities in the branches taken |
| C13 | int_t/uint_t `least` selection over the architecture's types | from C11, least type search |
| C14 | round_out | from C11 |
| C15, C16 | the operator tables | relation `Describes cr x`; case analysis over the tables |
| C17 | loop of minmax on lists of any length | induction on the list |
| C18 | interval operators | corner lemma for products and quotients; modulus refuted with witness |
| C19 | interval predicates over plain integers | direct; `intersect` refuted |
| C20, C42 | enum, policies, categories | finite case analysis over the complete enumeration, all policies; equivalence misses precision_overflow_error: refutation |
| C21, C22 | validate_detail | static analysis soundness via C01, C16 |
| C23, C47 | addition_result etc. | generic in result type; soundness of exception_possible |
| C24, C25 | division_result, modulus_result | native: full; automatic: partial, refutation for truncating operands; modulus value theorem, with the MIN%MIN exclusion; `C25_exact` describes every outcome of `%` for result types as wide as the operands (Props/ModExact) |
| C26 | shift results | partial: non-negative ranges; refutations |
| C27, C38 | bitwise results | partial: unsigned; refutation for signed |
| C28 | less_than_result, equal_result | soundness of compile time decision via C16 |
| C29 | return_interval | from C18; modulus and bitwise refuted |
| C30 | trap policy | instantiation model |
| C31 | automatic | partial: operands representable in the result type; refutation for ranges that cancel |
| C32 | cpp policy | partial: exactly which types deviate among the listed types of ordered machines; refutation for narrow unsigned and unlisted types |
| C33 | native | from C23, C24, C28 |
| C34, C36, C39 | state machine of a safe variable | induction on the history |
| C35 | expression trees | structural induction |
| C37 | input | state after a throwing read; refuted for ranges narrower than their base type, partial for full range types |
| C40 | literals | direct |
| C41 | symmetry | from C23 characterisations |
| C44 | casts | from C01 |
| C45, C46 | extended division and shifts | case analysis, fuel shown sufficient |
| C48 | numeric_limits | direct |
| C49, C50 | bounds of shift results, range types | from C26; partial, refuted for `>>` of wide unsigned types |
| C51 | stream output | decimal numeral and its reading are inverse |
| C52 | compound bitwise and shift assignments | from C26, C27; refutations |
| C53-C55 | ignoring policies, default construction | which checks are skipped and what is returned then, for every operator; refutations |
| C56 | trap policy for / % << >> | accepted programs that are still undefined: refutations; partial otherwise |
| C57-C60 | whole programs | induction on fuel, simulation between `exec` and the integer semantics `iexec`; `exec` agrees with the rules of the statements of C++ (`Big` in LangSpec), `C60_rules` |
| C61 | exact error code of each checked operation | closed forms of every checked operation, any handler; the list of codes that a handler must accept at compile time is exactly the set of codes that can be reported |
| C62 | programs with trapping policies | no exception can happen, so execution equals the integer semantics |
| C63-C65 | remainder, bitwise operators, quotient of extended integers | cases on operands, closed forms |
| C66 | no false alarms | simulation as for C60, with the premise that the integer execution fits the types |
| C67 | rejection depends on types only | closed forms of every operator: a type condition, then a run time part that is never rejected |
| C68 | predefined policies | cases on the (finite) error codes |
| C69 | `operator R` for R = bool | closed form of the validation with bounds 0 and 1; values other than 0 and 1 throw: `_partial` plus refutation |
| C70 | the stepper motor program of the tutorial | the program in the language of `Lang.lean`; operators on concrete types checked by evaluation, values symbolic; loop induction, square root bound for the delay |
| C71 | exceptions are thrown exactly when something does not fit | converse of C66 by inversion of each operator and comparison; induction on executions |
| C72 | the small example programs | each example with its constants replaced by arbitrary values: exactly when it stores or prints the right result, throws, or is rejected; operator checks on the concrete types by evaluation, values symbolic |
| C73 | the trap policy rejects exactly what could throw | if an operation fits for all values, the corners of the interval are values in the type, so no exception is found possible; the converse from C71; comparisons and conversions from their closed forms |
| C74 | safe types are a drop-in replacement | an operation that returns fits its type (C71), hence the built-in operation neither wraps nor is undefined; induction on expressions, conditions and run length; the type of the replaced expression has the same promoted type |
| C75 | where exactly the code deviates | the partial theorems of C01, C07, C09, C14, C15, C45, C46, C63 give one direction; a witness at the edge of every excluded case gives the other (`ExactSpec.Right1`, `Right2`: right for all integers the operands stand for) |
| C76 | where exactly safe `/`, `%`, `<<`, `>>` deviate, for every promotion policy | the compile time decision in closed form (`divExc_unchecked`, `modExc_unchecked`, `shl_skipped`, `shr_rejects`, `shr_skipped`; for native promotion also `shl_unchecked`, `shr_rejected`, `shr_overlooked`): where the run time check is made the result is right (C25, C26); where it is not made, the built-in operation is evaluated and compared |
| C77 | result types are tight | corner results are exact values clipped to `R`, a clipped value is determined by its position on the line, so the corners give the least and the greatest result (`corners_exact`); the specification (`TightSpec`) speaks of least, greatest and smallest only; with C30, C73 this decides when `op=` compiles under a policy that traps |
| C78 | exactly which bitwise operators compile and stay within bounds | the type of the result is `[0, 2^n-1]`-like in closed form (`bitTy_iff`); the results are bit patterns below `2^w`, so each is bounded by the largest pattern of the operands; conversely the largest patterns are attained (`topPattern`), combined with a suitable other operand |
| C79 | built-in operators are word arithmetic | a check of the trusted base: conversion is reduction modulo `2^w`, which commutes with `+ - *`; `toInt`/`toNat` lemmas of core Lean for the others; inclusion of integer types by comparing digits (`subset_iff`) |
| C80 | the first safe version of the motor program | the program in `Lang.lean`; one lemma per statement with symbolic values; the ramps are finite sequences of natural numbers, one for each of 438 distances, evaluated in the kernel (`chkAll`); induction for the constant speed and the runaway |
| C81 | shifts of extended integers with markers and unknown operands | rows of the two tables by the kind of operand (`CR.cases4`, `prodFlag_*`); a marker is met by bounds on `scale`; values by C46; refutation for markers shifted towards zero; the exact lists of wrong operands (`C81_shl_iff`, `C81_shr_iff`) by witnesses next to the range |
| C82 | commutative operators do not depend on the order | the promotion policies are symmetric (`PP.result` swapped; `Ranked` for cpp); the intervals of sums and products are (`minmax` of permuted corners); operand conversions may fail in either order, hence `Mirror` |
| C83 | versions of a program never end with different results | the integer computation depends only on the text of a program (`PortSpec.lean`); both executions follow it (C60); an execution that is not finished follows one that is not finished; for all programs by C88 (`C83_blame`) |
| C84 | laws of integer arithmetic may be used on programs | as C83, with equal integer meaning (`IntEq`) instead of equal text; the laws (congruence, `op=`, unrolling, sequences) by unfolding the integer semantics, loops by induction on fuel |
| C85 | texts of results, intervals and types tell everything | a numeral followed by a character that is no digit is read back uniquely (C51, C60); the texts of the error codes are different (C42) and contain no colon |
| C86 | floating point values as sources | partial: exact description of the cast over the rationals; refutations for fractions, infinities, NaN and the default `equal` |
| C87 | inherited members of numeric_limits | partial: exact condition for each member; refutations for ranges and unsigned types |
| C88 | every wrong outcome comes from an operation on operands of an explicit list | proved: C88_clean, C88_blame, C88_endless for all programs; C88_handlers, C88_blame_handlers when exceptions are caught on the way (`MaySpec.lean`: the program over the integers with statements free to throw; C88_may: without handlers this is the meaning over the integers), C88_endless_handlers when it does not end although the program with statements free to throw always does; C88_exact: the list is exact for throwing policies and every promotion policy (C88_quotient: for `/` and `%` it is enough to throw on arithmetic errors), C88_firm: and for trapping policies up to rejected operations; C88_covered: C59, C60 are the case where types alone exclude the list |
| C89 | exceptions are thrown exactly by the operations whose values do not fit | proved: C89_explains for all programs and policies; C89_fits, C89_count, C89_quiet, C89_last for executions whose operations are clean (C88) |
| C90 | every outcome of reading from a stream | proved: C90_outcomes, C90_char_outcomes (exact value of the variable and outcome for every stream), C90_stream (the stream afterwards when no number is read), C90_white, C90_digit (the characters the model takes for white space and digits, listed) |
| C91 | what exception policies can change | relation `Upto` (equal, or an exception the other policy does not throw) is a congruence of the outcome monad; policies enter only through `dispatch`; induction on programs |
| C92 | the order in which operands are evaluated | relations `AnyE`, `AnyC`, `AnyS` (`OrderSpec.lean`): outcomes of executions in any order, also interleaved; a value in one order is the value from left to right, by induction on derivations; programs by simulation with the rules `Big` of C60; termination in all orders by induction over `Unfinished` (`EndsSpec.lean`, `Props/OrderEnds`) |
| C93 | narrower operand types | partial: native and cpp promotion; corollaries of C71, C73, C77, C28; refutations for automatic promotion, `%`, comparisons in an unsigned type, and result types of operations that always overflow |
| C94 | comparison operators as an order | one type: direct from the comparison type; several types: corollary of C28, C30; refutations for mixed types |
| C95 | a subset of programs described by syntax and declared types | well-formedness of the result types (`resTy_has`, `minmax_cr`), induction over expressions; corollaries of C59, C60, C62, C71 |
| C96 | with trapping policies the compiler performs interval analysis | `C96_span` (the ends of naive interval arithmetic are attained), uniqueness of least and greatest results with C77, acceptance by C73; the type chosen by automatic promotion is the smallest one that represents the results (`smallest`), by C77; induction over expressions and statements |
| C97 | a trapping policy can be replaced by any other | a relation `Upto` (equal, or rejected on the left) carried through every function of the model that takes a policy (`Proofs/Release`), then induction over steps; with C96 for programs that interval analysis accepts |
| C98 | programs with handlers over the integers; a sound and complete logic for them (partial and total correctness) | every statement that stores or writes one value does it if all values fit and otherwise changes nothing and throws (C71, C66); reading is described by rules `Reads` proved from C90; rules `Runs` for the rest; induction over steps in one direction, over the rules in the other; completeness by weakest preconditions, the variant of a loop is its number of rounds; executions in any order (`Props/RunOrder`, `Props/OrderEnds`) by C92 |
| C99 | loops that count with a safe variable end | syntactic condition (`CountSpec.lean`): each loop moves a variable by constant steps in one direction on every path through its body; then `exec` with the fuel `depth W p` is not `none`, from all states in range and for all inputs, without any hypothesis on conditions; with C92 also in every order of evaluation. Measure: the values left in the direction of the step (the exact result is stored or the statement throws, C59). C99_blame: programs of this form that are not covered, or count with built-in variables, end within the bound or carry out an operation that is not clean (C88). Endless executions show that the safe type, the policy and the single direction are needed. |
| C100 | wider types do no harm | the types of an expression in both typings are related by induction (same policies and kind, promoted to signed types, at least as wide); an operation that returned fits its type (C71), hence the wider one, hence the wider program runs as over the integers (C66), in every order of evaluation (C92) |
| C101 | emulating the machine itself | policies that give the same result types: the types of all expressions are the same by induction, hence every step; the other direction by exchanging the policies. Instances from C32 (`C32_exact`) |
| C102 | automatic promotion does no harm | the result type of automatic promotion holds the operands, because -1, 0 and 1 belong to them (`x + 0`, `-1 - y`, `x * 1` are results), and every result that fits the native type; by induction everything that fits under native promotion (C71) fits under automatic promotion, then C66. Restricted to +, -, * and signed types on both sides of zero |
| C103 | types and promotion policies do not change results | both executions agree with the one over the integers (C60), which mentions neither types nor policies; different orders of evaluation by C92 |

## 5. Findings in the code

Each is proved in a theorem (name in brackets) unless marked "read".

Checked operations
* `checked::modulus(MIN, MIN)` is MIN, not 0 (C07).
* `checked::right_shift` of an unsigned value at least as wide as int by exactly its width is undefined (C09, C46).
* A bounded cast of an unsigned value below the bounds reports positive overflow (C01). So does `--x` for a
  `safe_unsigned_range<5, 10>` holding 5 (C61_decrement_refuted).
* `round_out` overflows in the upper half of wide signed types (C14).
* A left shift of a negative value reports `negative_shift`; `0 << digits` is reported as too large (C61).
* Several operators on overflow markers report the wrong side (C15); `MIN / positive overflow` is reported as 0
  although it may be -1 (C45).
* `operator<<` / `operator>>` of `checked_result` keep an overflow marker when it is shifted towards zero: a value known only to be
  below -128, e.g. -129, shifted right by one is -64, but the outcome still says "below -128". For unsigned types a count known only to be
  below zero is taken for one below minus the width: `5 << marker` is 0 although `5 << -1` is 2 (C81_refuted).
* With a handler that throws for some codes and returns for others `a + b` and `b + a` may differ even in kind: one throws, the other has
  undefined behaviour (C82_user_refuted).

Intervals
* The interval for % is not sound (C29_mod_refuted); + and - are not for ends that are markers of the wrong side (C18).
* `intersect` uses `||` and is true for all non-empty intervals (C19).

Safe types
* Automatic promotion: / and % convert an operand without a check and give wrong values (C24, C25);
  - throws for ranges that cancel (C31_refuted). `modulus_result` computes its type from the quotient
  interval, so that 999 % 500 can come out as 231 (C25_automatic_quotient_refuted).
* The order of the operands matters: with the cpp policy and two widths it does not know, `a + b` has the type of `a` (C82_refuted); under
  automatic promotion 200 + -200, both known at compile time, is computed in an 8-bit type and throws, positive or negative overflow
  depending on which comes first (C82_code_refuted).
* `x1 = x0 >> 1` ends without an exception and with different values for different types of `x1` (C83_refuted).
* A `checked_result` is printed as flag and value without a separator: of `0-3`, the text of the value -3, a reader of numbers gets 0
  (C85_flag_refuted). The input operators for `checked_result` read into rvalues and cannot be instantiated.
* The cpp emulation policy differs from built-in arithmetic for narrow unsigned types and others (C32). Among the listed types of
  ordered machines it gives `unsigned int` instead of `int` exactly if an operand is unsigned and narrower than `int` and the
  right type is `int`; nothing else differs (C32_exact). Shifts should have the type of the left operand; they get the common type.
* Native promotion: `INT_MIN % -1` is evaluated, undefined, when the divisor range excludes 0 (C25_ub_refuted; also accepted by trap
  policies, C56). Mixed signed and unsigned operands throw where built-in arithmetic is right (C33).
* Shifts: `[0,63] << [-1,1]`, negative values shifted left, `[0,0] << 40`, unsigned `>>` with a count that may be negative,
  and `safe<unsigned>(1) >> 32` are undefined; `safe<unsigned>(100) >> 1` has type range [0,0] and value 50 (C26, C49, C56).
* A shift count of a wider type is converted to the type of the left operand without check where the ranges look harmless: with a
  count of type `safe_signed_range<-4294967296, 3>`, `safe_unsigned_range<0, 63>` 9 shifted left by -4294967294 is 36 (and
  `safe<unsigned>` 36 shifted right by it is 9): the count wraps to 2 and nothing is reported (examples beside C76). C76 lists
  exactly the operands for which `/`, `%`, `<<` and `>>` go wrong.
* Quotients and remainders with a promotion policy whose result type is smaller than the operands (automatic, cpp), C76_div and
  C76_rem. The compiler decides from the ends of the ranges whether a check is needed, and it looks at too few of them: for `/`, if
  the smallest divisor is above the result type `R`, only the smallest dividend has to be a value of `R`; for `%` it is enough
  that the smallest dividend or the smallest divisor is a value of `R`. Then both operands are converted to `R` without a check.
  With automatic promotion `60000 / 50177` in `safe_unsigned_range<0, 100000>` and `<50000, 60000>` is 96, `60000 / 50176`
  is a division by zero, and `50000 % 100000` is 80. `QuotWrong` and `ModWrong` list all such operands; with native promotion
  there are none for `/`, and for `%` those of `RemWrong` (`C76_agree`).
* Shifts with automatic or cpp promotion (C76_left, C76_right). Besides what goes wrong with native promotion, values above the result
  type are shifted left without a check if all counts are below it: `safe_unsigned_range<0, 1000>` by -5 to -1 has type `unsigned
  char` and is undefined. Counts are converted to the result type, so in `unsigned char` `7 << -253` is 56 and `100 >> -254` is
  25. `LeftWrong` and `RightWrong` list all such operands; for native promotion they agree with `ShlWrong` and `ShrWrong`
  (`C76_agree_shift`).
* Bitwise operators on signed types and ~ give values outside the static range (C27, C38). `%=` and `|=` can
  leave a variable outside its range (C39_mod_refuted, C52_or_refuted).
* Default construction leaves the value uninitialised; `strict_exception_policy` ignores that (C55).

Policies
* With an ignored error, subtraction returns the *sum* (safe_base_operations.hpp line 533; C53).
* With an ignoring policy, every arithmetic operator is undefined when an operand of a safe type is not a value of the result type,
  e.g. `safe<int>(-1) + 5u`; and `INT_MIN % INT_MIN` is `INT_MIN` (C53).
* A validated cast with an ignored error reads the inactive member of a union (C53, C54).
* No error code has the class `undefined_behavior`: the third argument of `exception_policy` is never used (C68_ub_unused).
* `equivalent` does not know `precision_overflow_error` (C20).
* Stream input never compiles with a trapping policy (C62_input); it does not compile for ranges disjoint from int.
  Range types are overwritten before validation; character types store 0 for text and read an uninitialised
  value from an empty stream (C37).
* Remainders of overflow markers are wrong: for `signed char`, 130 % 5 is described as 4, 128 % -5 as -6, -129 % -5 as 6 and
  -128 % 128 as -128 (C63_refuted). Overflow markers of quotients are bounds only (C65_bound_only).
* `strict_exception_policy` ignores uninitialised values although its comment says it throws on any kind of error
  (C68_strictException_refuted).
* `if(x)`, `!x`, `while(x)` with a safe integer throw unless `x` is 0 or 1, because the conversion to `bool` is range
  checked (C69_refuted); with a trapping policy they never compile, with an ignoring policy they are undefined for
  other values.

What is not an error although an operand does not fit (C71, both confirmed by examples)
* A product with a type whose only value is zero: under automatic promotion it is computed in an 8-bit type whatever the other
  operand is; the range check is skipped because the result interval [0,0] is known.
* An order comparison of a negative signed with an unsigned number, if the ranges of the two types are apart. `==` and `!=`
  throw for the same operands.

Literals
* Minus of the literal MIN does not compile; the complement of a narrow unsigned literal never does (C40).

Tutorial (`example93.cpp`, `motor3.c`)
* A move by exactly one step never stops: half of 1 is 0, no step has the number 0, so the motor accelerates through the target to
  the end of the range, where the type throws (C70_one_step).
* The maximal speed (`ramp_const`) is never reached, for any move: integer division makes the delay stick at 13456 (C70_course).
* The first phase is always `d & 3`, whatever the phase after the previous move (seen in C70_arrives). `bit::m_word` is a copy, so
  that the timer register itself is never written (read).

Tutorial (`example92.cpp`, `motor2.c`)
* Only moves by 1-220, 222, 437 and 439-6275 steps arrive (C80_iff). After the midpoint of a short move `denom` is positive, so that
  "deceleration" goes on accelerating; for 221, 223-436 and 438 steps it reaches full speed when the step at which to brake has passed,
  and runs some 6500 steps until `ccpr` overflows (C80_runaway). Beyond 6275 steps `ccpr` overflows before the target.
* `ccpr >> 8` gets the type of range [0, 0] from the library, so that storing it in a byte is not checked and cuts it off silently
  (used in C80, `high_val`). `l << 8 + r` in `make16` shifts by `8 + r`; with both registers zero nothing is seen of it.

The trap policy rejects more than could throw (C73)
* Conversion to a built-in type looks at the stored type, not at the range: `safe_signed_range<0, 200>` (stored in a `short`) to
  `unsigned char` never throws, but is rejected with a policy that traps (C73_toBuiltin_refuted).
* `<` of ranges that are decided at compile time never throws, but with a policy that traps the operands are still converted, so
  the comparison is rejected if they do not all fit (C73_compare_refuted).
* It accepts `safe_signed_range<INT_MIN, 0> % safe_signed_range<-3, -1>`, which is undefined for one pair (C73_operator_refuted).

Where replacing safe types by built-in types changes a program without a report (C74)
* `-1 << 0`: the library returns -1, the built-in expression is undefined in C++ 14 (C74_refuted_shl).
* Ranges [-5,3] of `int` and [10,20] of `unsigned`: `a < b` is true with the library, false as a built-in expression (C74_refuted_compare).
* Automatic promotion: `a + a` of `safe<int>` is exact, the built-in sum undefined (C74_refuted_automatic).
* Safe types stored in a character type are written and read as numbers, built-in characters as characters: the text written differs
  for every value (C74_refuted_char_output), and reading "78" gives 78 or 55 (C74_refuted_char_input).

Where wider types make a program fail (C100)
* `x - y` of two `safe<unsigned short>` may be -1, of two `safe<unsigned>` it throws (C100_refuted_unsigned).
* Automatic promotion: `x * x * (x * x)` fits for `safe<unsigned short>` and throws for `safe<int>` (C100_refuted_automatic).
* A wider range stored in a narrower type overflows earlier (C100_refuted_width).

Where the emulation of the machine differs from the machine (C101, C32)
* `cpp<8,16,32,64,64>` on the usual machine throws at `x - x - 1` of an `unsigned char`, where native promotion gives -1
  (C101_refuted_unsigned, C32_host_refuted), and shifts in the type of the count if that is wider (C101_refuted_shift).
* Machines with the same `int` give the same programs for all types that both have (C101_machines), not for others (C101_refuted_listed).

Where automatic promotion refuses what native promotion computes (C102, C31)
* The difference of two variables of a range such as [1000, 1010] throws: the result type has room for the difference, not for the operands
  (C102_refuted_range). The sum of an `unsigned long` and a `signed char` is confined to `long` (C102_refuted_unsigned).
* `x + 100` with a literal of the library, for an `x` in [-200, 1], is computed in `signed char`, which does not have -200
  (C102_refuted_literal).
* For signed types to which -1 and 1 belong this cannot happen with +, - and * (C102_operation, C102_program_partial).
* What both compute is the same (C103), unless errors are caught or ignored (C103_refuted_caught, C103_refuted_ignored).

Examples (C72)
* `example11.cpp` says that an exception is thrown rather than an invalid result produced: `x + y` on `safe<int8_t>` never throws, it is
  computed exactly in `int` (C72_example11).
* `example7.cpp` says that the result type is the range 0 to 1439 and that there is no run time cost: the constant `60` counts as
  an arbitrary `int`, the result type is `safe<int>` and all checks stay (C72_example7).
* `example19.cpp` says that `i *= 9` fails to compile: it compiles, and throws if the product is not in the range (C72_example19_times).
* `example4.cpp` throws for a negative `a`, although `a < b` is true (C72_example4). `example10.cpp` throws for every negative `y`,
  even if `x` is 0 (C72_example10). `example1.cpp` throws at the initialisation of `x`, not at the addition (C72_example1).

Floating point values and numeric_limits (C86, C87)
* `checked::cast<int>(2.5)` is 2 without a report; if the integer part does not fit, and for infinities and NaN, the cast is
  undefined behaviour (C86_cast, C86_refuted). It never reports an error (C86_silent).
* A safe integer cannot be made from a floating point value at all: the compile time interval of the source type is cast as well,
  which is undefined and so no constant expression (C86_construct).
* The default `equal` of `checked_default.hpp` returns `t < u` (C86_default_equal_refuted).
* `numeric_limits` of a safe type is that of its stored type except for min, max and lowest: `safe<unsigned>` claims to be modulo but
  throws, a range 0 to 10 claims eight digits, and a range without negative values claims to be signed (C87_refuted).

Euclid's algorithm (C88)
* With `safe<int>` and native promotion Euclid's algorithm never ends for `INT_MIN` and `INT_MIN`, because `INT_MIN % INT_MIN` is
  `INT_MIN` (`EuclidInt.forever`); over the integers it ends after one round. For all other pairs every operation is clean
  (`EuclidInt.gcd_clean`).

Read only: `checked_float.hpp` is included nowhere and its `equal` also returns `t < u`; the whole body of `test_float.cpp` is a comment;
the integer specialisation of `checked_operation` has no `less_than`, `greater_than` and `equal`, and `checked::less_than` etc. return
`checked_result<bool>` from a tribool, so that these functions cannot be instantiated.

Read only, code that cannot be instantiated: the integer to float cast (`F::invoke`), `operator~` of
`checked_result` (`t.m_r`), the converting constructor of `checked_result`.

Narrower operand types (C93)
* More knowledge can hurt. With `a` in `[-10, 5]` and `b` an unsigned in `[6, 9]` the comparison `a < b` is true without any check; if
  `a` is declared as `[-10, -1]` the same comparison throws (C93_compare_refuted). `INT_MIN % -1` is 0 for `safe<int>`, and undefined
  behaviour if the divisor is declared as `[-5, -1]` (C93_modulo_refuted). With automatic promotion `200 + -200` is 0 for ranges
  that contain zero and throws if the operands are known exactly (C93_automatic_refuted).

A usable subset (C95)
- The theorems on programs (C58 to C62, C71) have conditions on the types of all subexpressions. `PlainS` is a condition on the text and
  the declared types only, and implies them. It shows what a user can rely on: native promotion, a policy that throws on
  implementation-defined behaviour too, no mixture of built-in operands only, `&`, `|`, `^` without negative ranges, and for `%` a divisor
  type whose range begins with zero (then the computed bounds are the whole base type) or one for which the computed bounds are right.
- The bounds of the type of `%` are computed from the remainders of the ends of the ranges. For positive divisors they are right exactly if
  the dividend range ends, on each side of zero, before the largest divisor or just before one of its multiples (C29_mod_iff). So
  `safe<unsigned> % c` has the right type exactly for powers of two; `safe<unsigned> % 10` has a type for 0 to 5, and `9` in it.

Trapping policies (C96)
- For native promotion and `+ - * /`, unary operators, casts, comparisons and assignments the compiler accepts a program with a trapping
  policy exactly if textbook interval arithmetic on the declared ranges finds that no result leaves its C++ type, no divisor range
  contains zero, no negative operand meets an unsigned common type, and what is assigned or cast is within the target range. Nothing else
  is needed to know that it compiles, and then it never throws. Reading from a stream and integers as conditions are always rejected.
- The same holds for automatic promotion and the policy `cpp` (for `+ - *`), with the type that the policy prescribes. Automatic promotion
  chooses the smallest type for the results, which need not represent the operands: `x - y` for `x`, `y` in 1000..1010 is computed in a
  `signed char` and rejected, while native promotion accepts it. So with trapping policies automatic promotion, which is meant
  to avoid overflow, rejects programs that native promotion accepts.
- The analysis does not look at conditions, so nothing can be counted: `++x`, `x = x + k` and `x += k` compile for no variable
  (C96_counter). A built-in constant `1` counts as any `int`; only literals of the library have their value as a range.
- A program that compiles with the trapping policy runs identically with every other exception policy, also one that ignores
  errors (C97); no assumption on the types is needed. So a program can be checked with the trapping policy and shipped with any.

Comparisons as an order (C94)
* With native promotion `-1 < 0` holds for `int` and `long`, `0 < 5` for `long` and `unsigned`, and `-1 < 5` for `int` and `unsigned`
  throws (C94_mixed_refuted); with a policy that ignores errors it reads the value of a failed conversion, which is undefined
  behaviour (C94_ignore_refuted). A container must therefore hold one safe type, where the order is total for every policy.

## 6. Theorems, tests and mutation

`THEOREMS.md` lists every property theorem with its axioms. `MANIFEST.json` says which properties are
complete.

`seeded/LOG.jsonl` records mutations of the model. For each, a copy of the project was edited and rebuilt. Each theorem whose proof
depends on a failing proof is listed. A failing proof alone does not show that the statement became false, so the statements
are also evaluated on random inputs against the edited model; `falsified` lists the theorems found false.

The entries M... were written by hand with the claim they break. The entries A..., B..., N..., H..., P..., Q... and R... are single-place edits of one
definition, most of them made by a script (an operator, a constant, a constructor or a branch is exchanged; P, Q and R by hand). For these, `killed` means that
a proof outside the edited file failed: `lemmas_failed` lists the first failing lemmas and `theorems_failed` the property theorems that depend on
them. `invalid` means that the edited file itself did not compile. `survived` means that everything still built, `weak` that
only examples or refutations failed; each of these was looked at, and either the comment says why no claim became false or
`theorems_tightened` names the theorems added or strengthened because of it.
