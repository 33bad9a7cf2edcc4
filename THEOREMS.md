# Property theorems

All are in the namespace `Verif.Props`. Axioms: P `propext`, C `Classical.choice`, Q `Quot.sound`. Generated from the compiled
files. `_partial`: part of the property, the rest is false or missing as the text of the theorem and MANIFEST.json say;
`_refuted`: a proof, with a witness, that the property does not hold for the code as it is.

## C01 Checked cast is exact or reports

checked::cast<R>(t) and the bounded cast used by safe types never have undefined behaviour; they return the value t unchanged exactly when t lies inside the target bounds [Min, Max], otherwise they return an error; the error is positive_overflow_error when t is above the bounds, and when t is below the bounds it is an error that denotes 'too small' (negative_overflow_error, or domain_error for a signed value going to an unsigned type).

* `C01_cast_partial` (PCQ): C01 for the bounded cast behind safe types. Everything but one clause of C01 holds: the error reported for an unsigned source below the bounds is `positive_overflow_error` (see the refutation below), so the "too small" clause is restricted to signed source types.
* `C01_cast_refuted` (none): The full C01 fails for bounded casts from unsigned types: 5 is below [10, 20] but the error says "positive overflow".
* `C01_checkedCast` (PCQ): C01 for `checked::cast<R>(t)`.

## C02 Checked addition is exact or reports the right overflow

checked::add<R>(t,u) has no undefined behaviour; it returns the mathematical sum exactly when the sum fits in R, positive_overflow_error exactly when the sum is above R's maximum and negative_overflow_error exactly when it is below R's minimum.

* `C02_add` (PCQ): C02

## C03 Checked subtraction is exact or reports the right overflow

checked::subtract<R>(t,u) has no undefined behaviour; it returns the mathematical difference exactly when it fits in R, positive_overflow_error exactly when it is above the maximum and negative_overflow_error exactly when it is below the minimum.

* `C03_subtract` (PCQ): C03

## C04 Checked negation is exact or reports the right overflow

checked::minus<R>(t) has no undefined behaviour; it returns -t exactly when -t fits in R, positive_overflow_error when -t is above the maximum and negative_overflow_error when it is below the minimum.

* `C04_minus` (PCQ): C04

## C05 Checked multiplication is exact or reports the right overflow

checked::multiply<R>(t,u), on both the widened fast path and the full-width path, has no undefined behaviour; it returns the mathematical product exactly when it fits in R, positive_overflow_error exactly when the product is above the maximum and negative_overflow_error exactly when it is below the minimum.

* `C05_multiply` (PCQ): C05

## C06 Checked division is exact or reports

checked::divide<R>(t,u) has no undefined behaviour; it returns domain_error exactly when u is zero, positive_overflow_error exactly for minimum/-1 of a signed type, and otherwise the quotient truncated towards zero.

* `C06_divide` (PCQ): C06. `t.tdiv u` is the quotient truncated towards zero.
* `C06_divide_in` (PCQ): the quotient returned is representable

## C07 Checked modulus is exact or reports

checked::modulus<R>(t,u) has no undefined behaviour; it returns domain_error exactly when u is zero and otherwise the remainder of truncated division (sign of the dividend), for every pair of operands.

* `C07_modulus_defined` (PCQ): C07, no undefined behaviour and domain_error exactly for zero: all pairs.
* `C07_modulus_partial` (PCQ): C07, except for the single pair (minimum, minimum) of a signed type, see the refutation.
* `C07_modulus_refuted` (PCQ): The full C07 fails: for every signed type, minimum % minimum returns the minimum instead of 0.

## C08 Checked left shift is exact or reports

checked::left_shift<R>(t,u) has no undefined behaviour; whenever it returns a value, the value is t*2^u exactly and 0 <= u; it reports an error for every negative shift count, every nonzero shift of a negative value and every shift whose product does not fit R; a positive value whose shifted product fits is never rejected.

* `C08_leftShift` (PCQ): C08

## C09 Checked right shift is exact or reports

checked::right_shift<R>(t,u) has no undefined behaviour; whenever it returns a value, the value is floor(t / 2^u) with 0 <= u; it reports an error for a negative shift count, a negative shifted value, and a shift count too large for the type.

* `C09_narrow_full_shift` (PCQ): In the remaining case of the previous theorem (narrow unsigned types) the value returned, 0, is right.
* `C09_rightShift_partial` (PCQ): C09, except for one shift count: an unsigned type at least as wide as `int` shifted by exactly its width. There the code passes its own test and then executes an undefined shift (next theorem).
* `C09_rightShift_refuted` (PCQ): The full C09 fails: `checked::right_shift(t, 32)` on a 32 bit `unsigned int` is undefined behaviour.

## C10 Checked bitwise operations are exact

checked::bitwise_or/and/xor/not never report an error and never have undefined behaviour; bit i of the result is the or/and/xor/negation of bits i of the operands for every bit position of R, signed types being read in two's complement.

* `C10_bits_determine` (PCQ): The bits determine the value, so C10 leaves no freedom.
* `C10_bitwise` (PCQ): C10
* `C10_not_value` (PCQ): C10 for `bitwise_not` on signed types: the value is `-t - 1`; on unsigned types `max - t`.

## C11 Bit length computation is correct

utility::ilog2 of a positive value is the unique k with 2^k <= t < 2^(k+1), and utility::significant_bits(t) is the least n >= 1 such that t < 2^n for t >= 0 and -2^n <= t for t < 0.

* `C11_ilog2` (PCQ): C11, ilog2 of a positive value
* `C11_significantBits` (PCQ): C11, significant_bits: the least `n ≥ 1` that is enough
* `C11_unique` (PCQ): C11, uniqueness of that `k`

## C12 Mixed signedness comparison is mathematical comparison

safe_compare::less_than, greater_than, less_than_equal, greater_than_equal, equal and not_equal on any two integer types return exactly the mathematical comparison of the two values.

* `C12_safeCompare` (PCQ): C12

## C13 Storage type selection can hold the range and is minimal

signed_stored_type<Min,Max> and unsigned_stored_type<Min,Max> name a type that exists and holds every value between Min and Max, and no strictly narrower type of the same signedness holds the range.

* `C13_signed` (PCQ): C13, signed ranges
* `C13_unsigned` (PCQ): C13, unsigned ranges

## C14 round_out returns an all-ones bound

utility::round_out(t) for t >= 0 has no undefined behaviour and returns the least value of the form 2^n - 1 with n >= 1 that is at least t; for t < 0 it returns a value of the form -2^n at or below t.

* `C14_roundOut_neg_partial` (PCQ): C14 for negative values, same restriction.
* `C14_roundOut_nonneg_partial` (PCQ): C14 for unsigned types (the only ones the library itself uses it with) and for types narrower than `int`, plus every value below half of the positive range. Missing: signed types at least as wide as `int` with a value in the upper half, where the code overflows (next theorem).
* `C14_roundOut_refuted` (PQ): The full C14 fails: `round_out` of a large `int` overflows, whichever its sign.

## C15 Extended integer arithmetic over-approximates the true value

If two checked_result values soundly describe two mathematical integers (a value describes itself, the overflow markers describe anything beyond the type's range on that side, any other error describes anything) then checked_result operator +, -, unary minus and * return a checked_result that soundly describes the true sum, difference, negation and product.

* `C15_add_partial` (PCQ): C15 for `+`, excluding sums of a value and an overflow marker with opposite signs.
* `C15_add_refuted` (P): C15 fails for `+`: in an 8 bit type, 100 plus something below -128 is reported as being below -128, but 100 + (-129) = -29.
* `C15_mul_partial` (PCQ): C15 for `*`, excluding (-1) * (max + 1) and the product of two "negative" values of an unsigned type.
* `C15_mul_refuted` (P): C15 fails for `*`.
* `C15_neg_partial` (PCQ): C15 for unary minus, excluding the negation of max + 1 in signed types and of negative values in unsigned types.
* `C15_neg_refuted` (P): C15 fails for unary minus: minus 128 is representable in 8 bits but reported as below the minimum; in an unsigned type minus "something negative" is reported as above the maximum.
* `C15_sub_partial` (PCQ): C15 for `-`, with the corresponding exclusions.
* `C15_sub_refuted` (P): C15 fails for `-`: 100 minus something above 127 is reported as being below -128, but 100 - 128 = -28.
* `C15_value_exact` (PCQ): Whatever the operands are, no operator has undefined behaviour or fails an assertion, and whenever the outcome is a value it is the exact mathematical result.

## C16 checked_result comparisons are sound three-valued comparisons

For checked_results describing two integers, operator <, >, <=, >=, == and != return true only if the relation holds for the described integers and false only if it fails, for every pair of integers described; two ordinary values always give a definite answer.

* `C16_comparisons` (PCQ): C16
* `C16_decisive` (PCQ): `<` of checked results answers true (false) exactly when all numbers described by the operands are in that order (in the other order); likewise `==`. So it is as informative as a sound comparison can be.

## C17 minmax returns the extremes of any list

utility::minmax of a non-empty list of mutually comparable elements returns an element of the list that is at most every element and an element that is at least every element.

* `C17_empty` (P): the empty list is the only one rejected
* `C17_minmax` (PQ): C17: any list length, any strict total order (`x < y`, `x = y` or `y < x`).

## C18 Interval arithmetic contains every pointwise result

For intervals over checked_result, if x lies in interval t and y lies in interval u (y nonzero and u excluding zero for division and modulus) then the true x+y, x-y, x*y, x/y, x%y lie in the interval t+u, t-u, t*u, t/u, t%u.

* `C18_add_partial` (PCQ): C18 for +. The lower ends may not be the marker for values above the type, nor the upper ends the marker for values below it; without that it is false (see the refutation).
* `C18_add_refuted` (P): A lower end above the range absorbs a negative summand: `[-100, -100] + (127, ...)` claims to be above 127.
* `C18_div_partial` (PCQ): C18 for /: as for *, and the divisor interval excludes 0 for sure (otherwise the code does not divide).
* `C18_div_refuted` (P): The quotient of a value by a range beyond the maximum is claimed to be 0, though `-128 / 128` is `-1`.
* `C18_mod_partial` (PCQ): C18 for %: if every number of the dividend interval is smaller in magnitude than every number of the divisor interval, the result is exactly the dividend interval, and that contains the remainders. Otherwise the result can be wrong (`C18_mod_refuted`).
* `C18_mod_refuted` (P): The remainder of a point of `[0, 10]` by 5 is not in the computed interval `[0, 0]`.
* `C18_mul_partial` (PCQ): C18 for *: as for +, and the upper ends are values or overflow markers, not other errors.
* `C18_mul_refuted` (P): An upper end that is an error other than overflow is dropped: `[1, ?] * [1, 1]` becomes `[1, 1]`.
* `C18_precondition` (PCQ): The precondition of interval division and remainder: the assertion fails exactly if zero lies in the divisor interval; otherwise they return. (The dividend may have any ends.)
* `C18_sub_partial` (PCQ): C18 for -, under the same condition on the ends as for +.
* `C18_sub_refuted` (P): The full C18 fails for -: with [positive overflow, positive overflow] minus [100, 100] the value 128 - 100 = 28 is not in the resulting interval.
* `C18_values_partial` (PCQ): Intervals whose four ends are all ordinary values, the common case: all four operators contain the pointwise results.

## C19 Interval predicates mean what they say

includes(point), includes(interval), excludes, operator<, >, ==, union, intersection and intersect on intervals of integers agree with the set of integers each interval denotes: includes is set membership / subset, excludes is disjointness, < (>) is true only if every element is less (greater) and false only if every element is greater (less), | contains both, & is set intersection and intersect is true exactly when the sets meet.

* `C19_extended` (PCQ): `includes` and `excludes` of intervals of checked results: with `a..b` and `c..d` ranging over the numbers described by the ends, the answer is true (false) exactly when the mathematical predicate is true (false) for all of them.
* `C19_extended_order` (PCQ): Membership of a value in an interval of checked results, and the order of two such intervals.
* `C19_intersect_constant` (PCQ): `intersect` is true for *every* two nonempty intervals, so it can never report that they do not meet: the code joins the two conditions by `||` where `&&` is needed.
* `C19_intersect_partial` (PCQ): `intersect` says true whenever the intervals meet.
* `C19_intersect_refuted` (PQ): The full C19 fails: `intersect` says that [0, 1] and [5, 6] have a common value.
* `C19_membership` (PCQ): Membership and exclusion of a point, inclusion and exclusion of an interval, decided exactly.
* `C19_order` (PCQ): Order of intervals: true only if all elements are so ordered, false only if all are ordered the other way, and undecided exactly when the intervals share a value.
* `C19_union_intersection` (PCQ): `|` is the smallest interval that contains both, `&` is the set intersection.

## C20 Every error reaches the handler its policy names

For each exception policy, dispatching an error code runs exactly the handler that the policy associates with the class of that error (arithmetic_error, implementation_defined_behavior, undefined_behavior, uninitialized_value), every non-success code belongs to exactly one class, and the std::error_condition equivalence published for users agrees with that classification.

* `C20_dispatch` (P): C20: dispatch runs exactly the handler of the error's class: a throwing handler throws that very code, an ignoring handler returns, a trapping handler does not compile.
* `C20_dispatchAndReturn` (PQ): C20: the checked operations of safe types throw the code or hand it back.
* `C20_equivalent_partial` (P): C20, published equivalence: agrees with the classification for every code except `precision_overflow_error` (next theorem).
* `C20_equivalent_refuted` (none): The full C20 fails: `precision_overflow_error` is dispatched as an arithmetic error but is equivalent to no error condition at all.
* `C20_equivalent_success` (P): Only `success` is equivalent to `no_action`.
* `C20_one_class` (PQ): C20: every non-success code has exactly one class; success has none.
* `C20_success` (none): C20: there is no handler for success: code that dispatches it does not compile

## C21 A constructed safe value is in range and equals its source

Constructing or assigning a safe value with a throwing policy from any built-in integer or any safe value either throws, or leaves a value that is mathematically equal to the source and inside the type's [Min, Max]; it throws exactly when the source is outside [Min, Max]; when the range check is skipped at compile time it could not have failed.

* `C21_any_policy` (PCQ): Whatever the policy (throwing, ignoring, trapping or written by the user): a construction that returns keeps the value and the value is in range. A check that the compiler leaves out could not have failed.
* `C21_construct` (PCQ): Construction of a safe value (type `S`) from a value `t` of any built-in or safe type `T`: the value is kept and is in range, or an exception is thrown and it was not in range, or the program does not compile.
* `C21_rejected` (PCQ): The compiler rejects a construction only if no value of the source type is in range, and then for every value.

## C22 Converting a safe value to a built-in integer is exact or throws

static_cast of a safe value to any built-in integer type either throws or yields the mathematically equal value, and throws exactly when the target type cannot represent it.

* `C22_toBuiltin` (PCQ): `static_cast` of a safe value to a built-in type: exact if representable, else an exception; always compiles.

## C23 Safe +, - and * are mathematically exact or throw

With a throwing policy, a + b, a - b and a * b where at least one operand is safe either throw or return exactly the mathematical result; this holds for the native, automatic and C++ emulation promotion policies; under native promotion the operation throws exactly when an operand or the mathematical result is not representable in the type the built-in expression would have.

* `C23_exact` (PCQ): For every promotion policy, with a throwing exception policy: `a + b`, `a - b`, `a * b` are exact, throw, or do not compile.
* `C23_native` (PCQ): Native promotion: `a op b` has the type of the built-in expression and throws exactly when an operand or the exact result is not representable in it.
* `C23_policy` (PCQ): With operands that are not literals, once the policy has given the type `R`, the program compiles, and `+` and `-` are: convert the operands to `R`, then the exact result or overflow. For `*` there is one deviation: an operand whose static range is `[0, 0]` makes the result `0` although the other operand may not be representable in `R`.

## C24 Safe division is exact or throws

With a throwing policy, a / b where at least one operand is safe either throws or returns the truncated mathematical quotient; division by zero always throws; no execution has undefined behaviour.

* `C24_automatic_partial` (PCQ): Automatic promotion: division is exact or throws when both operand types fit the widest type and the divisor range contains zero or fits the result type.
* `C24_automatic_refuted` (PQ): Automatic promotion: `safe_unsigned_range<0,100000> / safe_unsigned_range<50000,60000>` has type `uint8_t`, and the operands are converted to that type without a check: the quotient of 60000 by 50177 comes out as 96 instead of 1, and a divisor of 50176 divides by zero.
* `C24_cpp_refuted` (PQ): Emulated machine `cpp<8,8,32,32,64>`: the type `int16_t` is unknown, so `safe<int16_t> / safe<int64_t>` and `safe<int64_t> / safe<int16_t>` have type `int16_t`, and the quotient is truncated.
* `C24_native` (PCQ): Native promotion, operands not literals: the outcome is that of division in the type of the built-in expression: convert, report a zero divisor, report overflow, else the truncated quotient.
* `C24_native_exact` (PCQ): Native promotion: division is exact, throws, or does not compile; a zero divisor never gives a value.
* `C24_policy_partial` (PCQ): Any promotion policy that gives the type `R`: division is exact or throws, a zero divisor always throws (or the program does not compile), provided that (1) the divisor range contains zero or fits `R` and (2) `R` is as wide as both operand types or can represent every quotient of operand values. Without (1) or (2) the claim is false, see `C24_automatic_refuted`, `C24_cpp_refuted`.

## C25 Safe modulus is exact or throws

With a throwing policy, a % b where at least one operand is safe either throws or returns the mathematical remainder of truncated division; a zero divisor always throws; no execution has undefined behaviour.

* `C25_automatic_quotient_refuted` (PQ): automatic promotion takes the type of a remainder from the *quotients* (automatic.hpp:261) if the divisor is never zero: `safe_unsigned_range<0,1000> % safe_unsigned_range<500,600>` has type `uint8_t`, since the quotients are 0, 1, 2, and 999 % 500 comes out as 231 instead of 499
* `C25_automatic_refuted` (PQ): automatic promotion: `safe_unsigned_range<0,1000> % safe_unsigned_range<5,5>` has type `uint8_t`; 260 % 5 comes out as 4; and a divisor of 256 divides by zero
* `C25_exact` (PCQ): The whole story of `t % u` computed in a type `R` that is as wide as both operand types, with a policy that throws: operands that `R` does not represent and a zero divisor throw, otherwise the result is the remainder. There are two exceptions, both for the smallest value of a signed type.
* `C25_min_refuted` (PQ): `safe<int>(INT_MIN) % safe<int>(INT_MIN)` is `INT_MIN` instead of 0
* `C25_native_exact` (PCQ): Native promotion: `t % u` of safe integers is the remainder, or throws for a zero divisor or an operand that the common type does not represent. It is wrong for `min % min` when zero is in the range of the divisor, undefined for `min % -1` when it is not, and in no other case.
* `C25_native_partial` (PCQ): Native promotion: the remainder is exact, or an exception is thrown, or the program does not compile, except that for a signed type the dividend `min` is excluded with divisor `min` (see `C25_min_refuted`) and with divisor `-1` when the divisor range does not contain zero (see `C25_ub_refuted`).
* `C25_policy_partial` (PCQ): Any promotion policy that gives the type `R`, when `R` is at least as wide as both operand types, with the same two exclusions.
* `C25_ub_refuted` (PQ): `safe<int>(INT_MIN) % safe_signed_range<-5,-1>(-1)` evaluates `INT_MIN % -1`

## C26 Safe shifts are exact or throw

With a policy that throws on arithmetic and implementation-defined errors, a << b and a >> b where at least one operand is safe either throw or return a*2^b, respectively floor(a/2^b); no execution has undefined behaviour.

* `C26_loose_refuted` (PQ): With the loose exception policy a negative count is ignored and the undefined built-in shift is executed.
* `C26_shl_count_refuted` (PQ): C26 fails for `<<` when the count may be negative but the result interval has ordinary ends: `[0, 63] << [-1, 1]` is taken to be free of errors and a count of -1 is undefined behaviour.
* `C26_shl_loose_partial` (PCQ): C26 for `<<` under a policy that need not throw for the errors of shifts (`loose_exception_policy` ignores them): if the operands are free of these errors the value is exact or an (arithmetic) exception is thrown; if they are not, all bets are off (`C26_loose_refuted`).
* `C26_shl_native` (PCQ): Under native promotion, `safe<B>` with `B` at least as wide as `int`, shifted left by any operand whose range contains a positive count, is covered.
* `C26_shl_negative_refuted` (PQ): C26 fails for `<<` of a negative value that cannot overflow: undefined behaviour (before C++20).
* `C26_shl_partial` (PCQ): C26 for `<<` on covered operand types, any promotion policy: the exact value (and then the count is not negative), an exception, or a program that does not compile.
* `C26_shl_returns` (PCQ): `<<` returns whenever the operands and the result are values of the result base type, the count is not negative, and the left operand is positive, or zero (with a count below the number of digits), or the count is zero.
* `C26_shl_zero_refuted` (PQ): C26 fails for `<<` of the constant range zero: `0 << 40` in `int` is undefined behaviour.
* `C26_shr_count_refuted` (PQ): C26 fails for `>>` of an unsigned value by a possibly negative count: no error is expected and `>> -1` is undefined behaviour.
* `C26_shr_loose_partial` (PCQ): C26 for `>>` under a policy that need not throw for the errors of shifts.
* `C26_shr_partial` (PCQ): C26 for `>>` on covered operand types except for the shift by the full width of an unsigned type: the exact value (and then both operands are non-negative), an exception, or a program that does not compile.
* `C26_shr_returns` (PCQ): `>>` returns (if the program compiles) whenever the operands are non-negative values of the result base type and the count is at most its number of digits (but not the full width of an unsigned type).
* `C26_shr_width_refuted` (PQ): C26 fails for `>>` of an unsigned value by its full width: `safe<unsigned>(1) >> 32` is undefined behaviour.

## C27 Safe bitwise operations are exact on the declared range

a | b, a & b and a ^ b where at least one operand is safe return the bitwise result of the two values in the result type, and the returned safe value lies within the bounds of the returned safe type.

* `C27_all_bits` (PCQ): If the result type represents both operands, all bits (of the infinite two's complement) are right.
* `C27_and_refuted` (PQ): `safe_signed_range<-10,3>(-10) & 100`: the value is 100, the type of the result is `[0, 3]`
* `C27_bits` (PCQ): A bitwise operation that returns `v`: each bit of `v` within the width of the result type is the combination of the bits of the operands.
* `C27_bounds_partial` (PCQ): Operand ranges without negative numbers that fit the result type `R`: the operation compiles, the value is in the range of the result type.
* `C27_bounds_refuted` (PQ): `safe<int>(-1) | 0`: the value is -1, the type of the result is `[0, INT_MAX]`
* `C27_mask_partial` (PCQ): `&` with a mask: if the result type represents both operands, and one of them has no negative values and is within the bound of the type of the result, then the operation compiles, and the value is right and within the bounds. The other operand may be negative.

## C28 Safe comparisons are mathematical comparisons

With a throwing policy, a < b, >, <=, >=, ==, != where at least one operand is safe either throw or return exactly the mathematical comparison of the two values; under automatic promotion with ranges that fit one widest type they never throw; answers decided at compile time from the ranges are right.

* `C28_automatic` (PCQ): Automatic promotion: if both operand types are unsigned, or all their values fit the widest signed type, then a comparison always compiles and never throws (with a throwing or trapping policy).
* `C28_exact` (PCQ): For every promotion policy, with a throwing exception policy, a comparison is the mathematical one, throws, or does not compile.
* `C28_iff` (PCQ): Comparisons, every promotion policy, a policy that throws or traps: if the comparison compiles, it has a result, the right one, if both operands are values of the type in which they are compared, or, for `<`, `>`, `<=`, `>=`, the order follows from the bounds of the types; otherwise it throws.
* `C28_native` (PCQ): Native promotion, operands not literals: a comparison throws exactly when it would be carried out in an unsigned type and an operand is negative; the exception is that `<`, `>`, `<=`, `>=` of types with disjoint ranges may be answered (correctly) at compile time.

## C29 Result types advertise sound bounds

The safe type returned by +, -, *, /, %, <<, >> has static bounds that contain every value the operation can return, so that later operations may rely on those bounds to skip checks.

* `C29_arith` (PCQ): `+`, `-`, `*` with a policy that throws or traps on arithmetic errors, any promotion policy: if the operation returns `v`, then its safe type exists, is a proper safe type, and its bounds contain `v`.
* `C29_div_native` (PCQ): Division under native promotion: the bounds of the result type contain the quotient.
* `C29_div_policy_partial` (PCQ): Division under any promotion policy whose result type `R` represents both operands, when `R` is as wide as both operand types or can represent every quotient.
* `C29_ignore_refuted` (PQ): C29 for an ignoring policy: the wrapped value is outside the advertised bounds
* `C29_mod_constant` (PCQ): With native promotion: a remainder of a whole unsigned type by a constant has a right type exactly for divisors that divide `2^bits`, powers of two.
* `C29_mod_iff` (PCQ): ... and exactly when every remainder is within these bounds: on each side of zero the range ends before the largest divisor, or with a number just before one of its multiples.
* `C29_mod_refuted` (PQ): C29, modulus: `safe_range<0,10> % safe_range<5,5>` has type `[0,0]`, but `7 % 5` is 2
* `C29_mod_type` (PCQ): The type of `t % u` for a dividend range `[a, b]` with `a ≤ 0 ≤ b` and a range `[c, d]` of positive divisors: from the smaller of the remainders of `a` to the larger of the remainders of `b`.

## C30 Trap policy: code that compiles cannot fail

If an addition, subtraction, multiplication, construction or comparison with a trapping exception policy compiles, then for every value of the operands it returns the mathematically exact result, never throwing and never with undefined behaviour.

* `C30_arith` (PCQ): `+`, `-`, `*` with a trapping policy: either the program is rejected whatever the values are, or it returns the exact result for all values.
* `C30_compare` (PCQ): the same for comparisons
* `C30_construct` (PCQ): the same for construction and assignment

## C31 Automatic promotion chooses sufficient types

With automatic promotion the result type of a + b, a - b and a * b can hold every possible result whenever the exact result range fits the widest integer type, and then the operation never throws.

* `C31_holds` (PCQ): Automatic promotion: the result type of `+`, `-`, `*` represents every possible result that the widest type represents: the widest unsigned type for `+` and `*` of two unsigned types, otherwise the widest signed type.
* `C31_nothrow_partial` (PCQ): Consequently the operation does not throw if the widest type represents the result, provided that the result type also represents the two operands. Without this proviso it may throw, see `C31_refuted`.
* `C31_refuted` (PQ): C31: `[1000,1010] - [1000,1010]` gets the type `int8_t`, which represents every result, but the operands do not convert: the subtraction always throws
* `C31_zero` (PCQ): If the operand ranges contain zero (for `-`: and the second range is symmetric), the result type represents both operands, so that the operation never throws when the widest type represents all results.

## C32 C++ emulation policy follows the C++ promotion rules of the emulated machine

cpp<...>::result_type of two integer types equals the type given by the C++ integral promotions and usual arithmetic conversions for a machine whose char/short/int/long/long long have the widths given as template arguments.

* `C32_exact` (PCQ): Exactly which type the policy gives for all listed types of an ordered machine: `unsigned int` where the rules of C++ give `int` and one operand is an unsigned type narrower than `int`; the type of the rules of C++ in all other cases.
* `C32_host_partial` (PQ): The emulation of the machine on which the program runs changes nothing: if `int` of the emulated machine is that of the compiler and no operand is unsigned and narrower than `int`, every operator except the shifts has the same type and the same outcome as under the native policy, for every exception policy.
* `C32_host_refuted` (PQ): the emulation of the machine on which the program runs is not the native policy: `unsigned char` operands, and a shift by a wider count, which is refused under the native policy and carried out in the type of the count under the emulation
* `C32_host_shift_partial` (PQ): The shifts: the same if the conversion with the type of the count does not change the type of the left operand.
* `C32_host_spec` (none): On a machine whose `int` is that of the compiler the rules of C++ are those of the compiler.
* `C32_iff` (PCQ): Exactly when the type is the one of the rules of C++: unless the rules give `int` and an operand is unsigned and narrower than `int`.
* `C32_promote_partial` (PCQ): the promotion alone: right for every listed type except unsigned types narrower than `int`, which become unsigned
* `C32_result_partial` (PQ): For a machine with ordered widths, operand types of listed widths, no unsigned type narrower than `int`: the result type of the policy is the one the C++ rules give. The restrictions are necessary, see the refutations below.
* `C32_shift_iff` (PCQ): Shifts, whose type should be the promoted type of the left operand: the policy gives it exactly if the conversion with the type of the count does not change it, unless it is `int` and an operand is unsigned and narrower than `int`.
* `C32_shift_refuted` (PQ): the type of a shift should be the promoted type of the left operand; the policy converts both operands
* `C32_uchar_refuted` (PQ): `unsigned char` operands: `unsigned char + signed char` is computed in `unsigned int` instead of `int`, and `safe<uint8_t>(1) - safe<uint8_t>(2)` throws although both the C++ rules and the mathematical value give -1
* `C32_unlisted_refuted` (none): a host type whose width the machine does not have ranks above all others: on `cpp<8,8,32,32,64>`, `int16_t + int64_t` is computed in `int16_t`
* `C32_unusable_refuted` (none): an unlisted signed type with a listed wider unsigned one selects the class `std::make_signed<...>`, which is not an integer type: the expression does not compile

## C33 Native promotion is a drop-in replacement

With native promotion, if the expression a op b on built-in integers has defined behaviour and does not wrap (its value equals the mathematical value), then the same expression on safe values returns that same value in the same result type and does not throw, for op in +, -, *, /, and comparisons.

* `C33_arith_partial` (PCQ): Native promotion: if the built-in expression has a defined, mathematically exact value, and (in the case of an unsigned result type) neither operand is negative, then the safe expression returns the same value and has the same base type. The proviso on negative operands is necessary, see `C33_refuted`.
* `C33_compare_iff` (PCQ): So with native promotion: if the built-in comparison is right, the one of safe types gives the same answer if and only if both operands are values of the common type or the order follows from the bounds of the types; otherwise it throws.
* `C33_compare_partial` (PCQ): The same for comparisons.
* `C33_iff` (PCQ): If the built-in expression `t op u` has the right value, and the expression with safe operands compiles, then the latter has the same value if and only if both operands are values of the common type (no negative number meets an unsigned type), or the product is known to be zero from the types. In all other cases it throws.
* `C33_refuted` (PQ): C33: `-1 + 5u` is 4 on built-in types, which is the mathematical value; `safe<int>(-1) + 5u` throws
* `C33_types` (PQ): Native promotion: the base type of the result of an operator is the type that C++ prescribes for the built-in operator: for a shift the left operand, promoted to `int` if it is narrower, whatever the count; for the other operators the common type of both operands.

## C34 Range invariant and strong exception guarantee over any history

Starting from an initialised safe variable, after any finite sequence of assignments, compound assignments, increments and decrements, some of which may throw, the variable always holds a value inside its declared [Min, Max], and an operation that throws leaves the variable unchanged.

* `C34_append` (PQ): A history is a sequence of steps: running two histories one after the other is running the first and then, from the store it leaves (also when its last statement threw), the second.
* `C34_invariant` (PCQ): Any history of statements of any length, with exceptions caught after each: the program does not compile, or at the end (hence after every prefix) all variables are in range. No step is undefined.
* `C34_mod_refuted` (PQ): the same as a program: the range invariant is lost
* `C34_step` (PCQ): One statement with covered operators and a throwing policy, executed with all variables in range: it gives its target the mathematical value, which is in range, and changes nothing else; or it throws and changes nothing; or the program does not compile.
* `C34_strong` (PQ): Every statement whatsoever (any operators, any policies, any values): if it does not return normally, in particular if it throws, no variable has changed; if it returns, at most its target has changed.

## C35 Whole expressions are exact or throw

Any expression tree built from safe variables, built-in constants, +, -, *, unary minus and unary plus, of any shape and depth, evaluated with a throwing policy, either throws or returns exactly the mathematical value of the expression.

* `C35_const` (PQ): What the theorem above leaves out: an operator between two constants is the operator of the language. It has the mathematical value when operands and result are values of the common type of the constants (for `%` with signed operands also the quotient).
* `C35_exact` (PCQ): Every expression over safe variables, constants and literals with `+`, `-`, `*`, unary minus and plus (under native promotion also `/`), of any shape and depth, with a throwing policy: its value is the mathematical value of the expression and lies within the bounds of its type, or an exception is thrown, or the program does not compile.
* `C35_trap` (PCQ): With a trapping policy: either the expression is rejected, whatever the values of the variables are, or it has its mathematical value for all of them.
* `C35_zero` (PCQ): An expression that divides by zero anywhere never has a value.

## C36 Increment and decrement are exact or throw

++x, x++, --x, x-- on a safe variable with a throwing policy either throw and leave x unchanged, or change x by exactly one; they return the new value (prefix) or the old value (postfix); they throw exactly when the new value is outside [Min, Max] or not representable in the intermediate type.

* `C36_dec` (PCQ): `--x` in the same way
* `C36_inc` (PCQ): `++x` with any promotion policy that gives the type `R` for `x + 1`: `x + 1` if this is within the range of the variable and representable in the intermediate type together with `x`; otherwise an exception. It is always accepted by the compiler.
* `C36_native` (PCQ): Under native promotion the intermediate type plays no role: `++x` and `--x` throw exactly when the new value is outside the range of the variable.

## C37 Stream input never leaves an out-of-range value

Reading a safe value from a stream with a throwing policy either throws or leaves the variable in range and equal to the number read; when it throws the variable still satisfies its range invariant.

* `C37_accepts` (PCQ): C37, the other direction: a number in range is read (if input compiles at all for the type); a minus sign is not accepted for unsigned types, even in `-0`. All types.
* `C37_char_empty_refuted` (P): Reading from an exhausted stream into a character type uses an uninitialised variable.
* `C37_char_partial` (PCQ): C37, character types: an input that returns leaves a value in range; if the stream has not failed it is the number read.
* `C37_char_text_refuted` (P): Reading text that is not a number into a character type stores 0 and does not throw.
* `C37_compile_refuted` (P): Input does not compile for a type whose range does not meet the range of `int`, although `int` is not used.
* `C37_compiles` (PCQ): C37, what compiles: input into a safe type with a throwing policy compiles exactly if some value of the type is an `int` (also for types that are never read as `int`).
* `C37_invariant_partial` (PCQ): C37, the range invariant when an exception is thrown: it holds for types whose range is that of their base type, and for character types.
* `C37_range_refuted` (P): The range invariant is lost when reading throws: a number that is out of range stays in the variable.
* `C37_reads_partial` (PCQ): C37, types that are not character types: an input that returns has read a number that is in range and stored it; the stream has not failed and stands behind the number; the number had no minus sign if the type is unsigned.
* `C37_text_refuted` (P): Text that is not a number stores 0, which may be out of range.

## C38 Unary minus and complement are exact or throw

-x on a safe value either throws or returns the mathematical negation; ~x either throws or returns the bitwise complement in the result type, and the returned value lies within the bounds of the returned type.

* `C38_compl_refuted` (PCQ): For every type that promotes to a signed type, and every non-negative value for which `~x` compiles, the result is negative but the bounds of its type start at 0.
* `C38_compl_unsigned_partial` (PCQ): An unsigned type at least as wide as `int`: `~x` compiles and lies within the bounds of its type.
* `C38_compl_value` (PCQ): Native promotion: if `~x` compiles, it is the complement in the promoted type: `-x-1` if that is signed, `max-x` if it is unsigned.
* `C38_neg` (PCQ): `-x` is the mathematical negation, or an exception, or rejected.
* `C38_neg_type` (PCQ): The value of `-x` lies within the bounds of its type.
* `C38_program` (PQ): `~a` in a program is the complement of the library (C38).

## C39 Compound assignment equals operation followed by assignment

x op= y for op in +, -, *, /, % with a throwing policy either throws and leaves x unchanged, or leaves x equal to the mathematical result of x op y, inside [Min, Max].

* `C39_compound` (PCQ): `t op= u` for `+`, `-`, `*` (under native promotion also `/`) with a throwing policy: the new value is the mathematical result and is in the range of the variable, or an exception, or rejected.
* `C39_iff` (PCQ): The compound assignment succeeds exactly when the operation succeeds and its result is in the range of the variable.
* `C39_mod_partial` (PCQ): `t %= u` under native promotion, when the range of the variable contains 0 (otherwise the variable may leave its range, see `C39_mod_refuted`), with the exclusions of `C25_native_partial`.
* `C39_mod_refuted` (PQ): `%=` on a variable whose range does not contain 0: the result type of `T % U` is computed as `T` itself, so that the result is copied without a check: 70000 %= 70000 leaves 0 in a `safe_signed_range<20000,100000>`

## C40 Literals behave as exact constants

A safe literal with value N has range [N, N], its stored type represents N, it converts to N in every built-in type that can represent N and is rejected otherwise, and its unary minus is the literal with value -N whenever -N is representable.

* `C40_convert` (PCQ): C40: conversion of a literal to a built-in type: its value, under every policy, if the type represents it; otherwise the compiler rejects it or (a throwing policy) an exception is thrown.
* `C40_make` (PCQ): C40: `make_safe_literal(n)` for a constant `n` of any type has the value `n`.
* `C40_minus` (PCQ): C40: unary minus is the literal `-N` when the stored type of the literal represents `-N`, else it does not compile.
* `C40_minus_refuted` (PQ): "whenever `-N` is representable" (in some integer type) is too much: the minimum of a type is stored in that very type, and its negation does not compile although the next larger type represents it.
* `C40_not_narrow` (PCQ): complement of an unsigned literal narrower than `int` never compiles
* `C40_not_signed` (PCQ): complement of a signed literal: the literal `-N - 1`
* `C40_not_unsigned` (PCQ): complement of an unsigned literal at least as wide as `int`: the literal `max - N`
* `C40_plus` (none): C40: unary plus of a literal is a literal with the same value and type.
* `C40_signed` (PCQ): C40: the stored type of a signed literal: signed, represents `N`, no smaller signed type does; range `[N, N]`.
* `C40_unsigned` (PCQ): C40: the stored type of an unsigned literal

## C41 Safe + and * are commutative; comparisons are antisymmetric

a + b and b + a (likewise *) have the same outcome, value or error, whichever operand is safe or built-in; a < b and b > a, a == b and b == a, a != b and !(a == b) always agree.

* `C41_codes_refuted` (PQ): C41: the codes of two orders differ under automatic promotion: `[1000,1010] + [-1010,-1000]`
* `C41_compare` (PQ): `a < b` is `b > a`, `a <= b` is `b >= a` up to the order in which operands are reported; `>=` and `!=` are the negations of `<` and `==`.
* `C41_consistent` (PCQ): `a == b` and `b == a`, `a < b` and `b > a`: no two orders of writing a comparison give contradictory answers, for any promotion policy.
* `C41_cpp_refuted` (PQ): C41: with an emulated machine `cpp<8,8,8,8,8>` the types `int16` and `int32` are both unknown (rank 6), and the first operand decides the type of the sum: one order throws, the other does not
* `C41_eq_native` (PCQ): Under native promotion `==` and `!=` have the same outcome in both orders.
* `C41_native` (PCQ): Under native promotion the two expressions have the same type and the same outcome, error codes included.
* `C41_policy_partial` (PCQ): `a + b` and `b + a`, `a * b` and `b * a`: whenever the promotion policy gives the two expressions the same type, they have the same value or both throw. The error codes can differ, see `C41_codes_refuted`.

## C42 Error codes, texts and enumerators agree

Every safe_numerics_error enumerator has a distinct non-empty text, error_code message returns it, distinct errors are distinct codes and only success is falsy.

* `C42_codes` (P): C42: distinct errors are distinct codes; only success is falsy
* `C42_literals` (PCQ): C42: enumerator names are distinct and non-empty
* `C42_message_names` (PCQ): C42: the message of a code is the name of its enumerator, spaces for underscores
* `C42_messages` (PCQ): C42: every enumerator has a non-empty message, messages are distinct

## C43 safe_compare orders all integer types consistently

Across any mixture of integer types, exactly one of less_than(a,b), equal(a,b), greater_than(a,b) holds, less_than and equal are transitive, and equality is preserved by checked::cast that succeeds.

* `C43_cast_preserves` (PCQ): C43: equality is preserved by a successful cast, and so is order against any third value.
* `C43_transitive` (PCQ): C43: transitivity across three types
* `C43_trichotomy` (PCQ): C43: trichotomy

## C44 Cast round trips are lossless

If checked::cast<R>(t) succeeds then casting the result back to the original type succeeds and returns t; widening to a type whose range includes the source type never fails.

* `C44_cast_roundtrip` (PCQ): C44
* `C44_cast_widen` (PCQ): C44, widening

## C45 Extended integer division is sound away from infinite numerators

If the numerator is an ordinary value and the denominator soundly describes a nonzero integer, checked_result operator/ returns a checked_result that soundly describes the truncated quotient.

* `C45_div_partial` (PCQ): C45, excluding the two defects refuted below: a negative denominator described only by an overflow marker of an unsigned type, and minimum / (maximum + 1) of a signed type.
* `C45_div_refuted` (P): C45 fails: -128 / 128 = -1 and, for an unsigned type, 5 / (-1) = -5, but both are reported as exactly 0.

## C46 Extended integer shifts are sound

For ordinary values t and u, checked_result operator<< and >> never have undefined behaviour or assertion failures, terminate, and return either t*2^u (respectively t shifted right, rounding towards zero) or an overflow marker on the side of the true value (never a wrong value).

* `C46_shl` (PCQ): C46 for `<<`: always returns (at any recursion depth from 3 on); the outcome is the exact value or the overflow marker of the right side. A marker is wrong only for `t * 2^u = minimum`, where it reports an overflow for a representable value.
* `C46_shr_partial` (PCQ): C46 for `>>`, excluding the shift of an unsigned value at least as wide as `int` by exactly its width.
* `C46_shr_refuted` (PQ): C46 fails for `>>` of a 32 bit unsigned value by 32: undefined behaviour.

## C47 No undefined behaviour in any safe +, -, *, comparison or construction

No construction, assignment, comparison, addition, subtraction or multiplication of safe values executes undefined behaviour or fails an internal assertion, for any throwing exception policy and any promotion policy.

* `C47_noUb` (PCQ): construction, conversion, comparison, `+`, `-`, `*` with a throwing policy: no undefined behaviour and no failed assertion, for every promotion policy

## C48 numeric_limits of a safe type are its attained bounds

std::numeric_limits<safe type>::min()/max() return the declared bounds, the declared bounds are themselves storable, and every value storable through the public interface lies between them.

* `C48_limits` (PCQ): `numeric_limits` of a safe type: `lowest() = min() = Min`, `max() = Max`; both are values of the type that can be stored through the checking constructor; every value stored through it lies between them; every value between them can be stored.

## C49 Result types of shifts advertise sound bounds

When a << b or a >> b on safe operands returns a value, that value lies within the static bounds of the safe type the operator returns.

* `C49_consequence_refuted` (PQ): A consequence: `(safe<unsigned>(2^31) >> 1) * 4` is taken to be free of errors and wraps to 0; and `(safe<unsigned>(100) >> 1) < safe_unsigned_range<1, 9>(5)` is true at compile time.
* `C49_shl_bounds` (PCQ): The result of `<<` is in the range of its type.
* `C49_shr_bounds_partial` (PCQ): The result of `>>` is in the range of its type, for covered operand types.
* `C49_shr_refuted` (PQ): C49 fails: `safe<unsigned>(100) >> 1` has the value 50, but the type of the result is the range `[0, 0]`.
* `C49_store_refuted` (PQ): The wrong type `[0, 0]` of `safe<unsigned>(100) >> 1` destroys the range invariant: assigned to a variable of type `safe_unsigned_range<0, 9>` the value 50 is not checked.

## C50 Range types have exactly the declared bounds

safe_signed_range<Min, Max> and safe_unsigned_range<Min, Max> are valid types whose values are exactly the integers from Min to Max, stored in the smallest type that can hold them.

* `C50_signed` (PCQ): C50: `safe_signed_range<Min, Max>` is a type with exactly these bounds, stored in the smallest signed type.
* `C50_unsigned` (PCQ): C50: `safe_unsigned_range<Min, Max>`

## C51 Stream output is the decimal numeral and reads back

Writing a safe value to a stream prints the decimal numeral of its value for every stored type, character types included; reading it back into any safe type that has the value restores it and leaves the following characters in the stream.

* `C51_numeral` (PCQ): the numeral that is printed writes the number: a minus sign for negative numbers, then its digits
* `C51_output` (PCQ): C51: the output of a safe value is the decimal numeral of its value, for every stored type.
* `C51_round_trip` (PCQ): C51: a value written to a stream and read back into a variable of the same type (or any type `S` that has the value) is the same value, and the characters behind it are left; provided input compiles for the type.

## C52 Compound bitwise and shift assignments are exact or throw

x <<= y, x >>= y, x |= y, x &= y and x ^= y on a safe variable either throw and leave x unchanged, or leave x equal to the result of the operation, inside [Min, Max].

* `C52_bit_partial` (PCQ): C52 for `|=`, `&=`, `^=` on ranges without negative numbers that fit the result type: the value with the right bits, in range, or an exception when it is not in range (or no compilation).
* `C52_or_refuted` (PQ): C52 fails for `|=` with a negative operand: the result type `[0, INT_MAX]` is the very type of the variable, so the value -1 is copied without validation.
* `C52_shl` (PCQ): C52 for `<<=`, covered operand types: the exact value, which is in range, or an exception (or no compilation).
* `C52_shr_partial` (PCQ): C52 for `>>=`, with the exclusions of C26.
* `C52_shr_width_refuted` (PQ): C52 fails for `>>=` by the full width of `unsigned`: undefined behaviour.

## C53 Ignoring policies give built-in arithmetic

With an exception policy that ignores arithmetic errors, a op b on safe operands yields what the built-in expression yields, wrap-around and undefined behaviour included.

* `C53_arith_partial` (PCQ): With a policy that ignores arithmetic errors, `+` and `*` in the result type `R` are the built-in operators on the operands converted to `R`, with their wrap-around and their undefined behaviour; the result is converted to `R`. Operands of safe types have to be values of `R`.
* `C53_compare_partial` (PCQ): Comparisons with a policy that ignores arithmetic errors, native promotion. If both operands are of built-in types or values of the common type, the answer is that of the built-in comparison, or (where the ranges decide) that of the comparison of the numbers. If an operand of a safe type is not a value of the common type, the comparison is undefined, or gives the answer for the numbers.
* `C53_compare_refuted` (PQ): All the cases of `C53_compare_partial` occur: `safe<int>(-1) < 5u` is undefined (the built-in comparison says `false`); compared with a value between 10 and 20 the types decide, and the answer is that for the numbers; and `5u < -1` with a built-in `-1` is what the built-in comparison says, which is wrong for the numbers.
* `C53_mod_partial` (PCQ): Native promotion: with a policy that ignores arithmetic errors `%` is the built-in expression whenever that is defined, except that the smallest value of a signed type is its own remainder when divided by itself; a zero divisor is undefined as in the built-in expression.
* `C53_mod_refuted` (PQ): `INT_MIN % INT_MIN` is `INT_MIN`, the built-in expression gives 0; `safe<int>(-1) << 0` is -1, the built-in expression is undefined; `safe<int>(-1) % 5u` is undefined, the built-in expression gives 0.
* `C53_native_partial` (PCQ): Native promotion: `+`, `*` and `/` with an ignoring policy are the built-in expressions.
* `C53_refuted` (PQ): `safe<unsigned>(1) - safe<unsigned>(2)` gives 3; the built-in expression gives 4294967295. `safe<int>(-1) + 5u` is undefined; the built-in expression gives 4.
* `C53_shl_partial` (PCQ): With a policy that ignores arithmetic errors and implementation defined behaviour, `<<` in the result type `R` is the built-in operator on the operands converted to `R`, converted to `R`; except that a count of zero yields the left operand when a check is made at run time, also for negative operands, for which the built-in shift is undefined.
* `C53_shr_partial` (PCQ): The same for `>>`, without exception, for operand types that compile.
* `C53_sub_adds_refuted` (PCQ): When the difference is not a value of the unsigned type `R`, the ignored subtraction yields the (wrapped) sum instead of the wrapped difference.
* `C53_sub_partial` (PCQ): `-` with an ignoring policy is exact when the difference is a value of `R`.
* `C53_unfit_refuted` (PCQ): With a policy that ignores arithmetic errors and native promotion, an operand of a safe type that is not a value of the result type makes `+`, `-`, `*`, `/` and `%` undefined, although the built-in expression would just convert it.

## C54 Ignoring policies give built-in conversions

With an exception policy that ignores arithmetic errors, constructing or assigning a safe value keeps representable values and otherwise behaves like the built-in conversion.

* `C54_keeps_partial` (PCQ): Constructing, assigning or casting with an ignoring policy keeps every value that the safe type has.
* `C54_refuted` (P): The value 300 stored in a `safe_unsigned_range<0, 100>`, and `safe<signed char>(200)`.
* `C54_ub_refuted` (PCQ): For a value that the safe type does not have the ignoring policy never yields a value: the conversion reads a union member that was never written (undefined behaviour), or the program does not compile.

## C55 Default construction is never silently uninitialised

safe<T> x; either throws, does not compile, or leaves x with a determinate value.

* `C55_default_partial` (PQ): Default construction throws if the policy throws on uninitialised values, does not compile if it traps them, and otherwise succeeds with an indeterminate value.
* `C55_refuted` (none): The strict policy, which is the default, says nothing about uninitialised values: `safe<int> x;` compiles and leaves `x` indeterminate.

## C56 Trap policy: division, remainder and shifts that compile cannot fail

With a trapping exception policy, a / b, a % b, a << b and a >> b are rejected at compile time, or have the exact mathematical value (and a defined one) for every value of the operand types.

* `C56_div` (PCQ): `/` with a trapping policy, for a result type that represents the divisors (or a divisor range around zero): the program is rejected, or the quotient is exact (and the divisor never zero) for all values.
* `C56_div_bounds` (PCQ): Quotient under native promotion, no restriction.
* `C56_div_native` (PCQ): `/` with a trapping policy under native promotion, no restriction.
* `C56_div_policy_bounds_partial` (PCQ): The bounds of the result types hold with a trapping policy too: quotient, for a result type that represents both operands.
* `C56_mod_partial` (PCQ): `%` with a trapping policy, for a result type that represents both operands and operand types that do not contain `MIN % -1`: the program is rejected, or the remainder is exact (and the divisor never zero) for all values.
* `C56_mod_refuted` (PQ): The trap policy accepts `safe_signed_range<INT_MIN, 0> % safe_signed_range<-3, -1>` and `INT_MIN % -1` is undefined.
* `C56_shl_bounds_partial` (PCQ): Likewise for `<<`.
* `C56_shl_partial` (PCQ): `<<` with a trapping policy on covered operand types: rejected, or exact for all values.
* `C56_shl_refuted` (PQ): The trap policy accepts `[0,63] << [-1,1]`, which is undefined for the count -1.
* `C56_shr_bounds_partial` (PCQ): Likewise for `>>`.
* `C56_shr_partial` (PCQ): `>>` with a trapping policy on covered operand types, no shift by the full width of an unsigned type: rejected, or exact for all values.

## C57 Policies of expressions

The type of an expression of any depth carries exactly the promotion and exception policies that occur in its operands; expressions that mix two different policies of one sort do not compile.

* `C57_common` (P): Two types have a common policy `a` exactly if one of them has it and the other has the same one or none.
* `C57_common_cases` (PQ): Without a common policy the program does not compile; the common policy does not depend on the order.
* `C57_mixed` (PQ): An expression with two different promotion policies, or two different exception policies, does not compile.
* `C57_tree` (PQ): The type of a whole expression carries exactly the policies that occur in it, however deep.

## C58 Expressions with all operators are exact or throw

Every expression of arithmetic, bitwise and shift operators, unary operators, casts and literals over safe and built-in operands has its integer value, which lies within the bounds of its type, or throws, or does not compile; likewise every condition.

* `C58_cond_partial` (PCQ): Conditions: the right answer, or an exception, or rejected.
* `C58_exact_partial` (PCQ): Every covered expression (any operators, casts, literals, any depth, mixed safe and built-in operands) has its integer value and that value lies within the bounds of its type; or an exception is thrown; or the program does not compile.

## C59 Whole programs keep their invariants

No execution of a program of assignments, compound assignments, increments, stream input and output, conditionals, loops and exception handlers over safe variables has undefined behaviour, and all variables are within their ranges after it, exceptions or not.

* `C59_bound` (PCQ): The bound `f` on the nested steps only decides whether the execution is finished, not its result.
* `C59_safe_partial` (PCQ): Whole programs with loops, input, output and exception handlers, policies that throw or trap (they may differ between variables): no execution, of any length, from any state within the ranges, with any input, has undefined behaviour or fails an assertion, and the variables are within their ranges at the end, also when the program ends by an exception.

## C60 Programs without exceptions compute what they compute over the integers

A program that ends without having thrown an exception has the same final variables, output and remaining input as the same program over the unbounded integers.

* `C60_bound` (PCQ): The same for the program over the integers.
* `C60_iread` (PQ): The reader of the integer program is what it should be: it reads a numeral if there is one.
* `C60_refines_partial` (PCQ): An execution that ends without any exception (thrown, or caught on the way) computes what the program computes over the integers: the same values of all variables, the same output, the same rest of the input.
* `C60_rules` (PCQ): The execution of any program ends with an outcome in a state exactly if the rules of the statements of C++ say so: sequences, conditionals, loops and handlers do what they do in C++, for any values of the expressions.
* `C60_transfer_partial` (PCQ): Whatever is shown about the program over the integers, for states within the ranges, holds for the program.
* `C60_try_seq` (PCQ): Statements that succeed can be moved out of a `try` block: an exception of the rest is handled in the state they left.
* `C60_undefined_partial` (PCQ): A program that divides by zero, or is otherwise undefined over the integers, never ends without an exception.
* `C60_unique` (PCQ): The execution of a program is deterministic: the rules give at most one outcome and state.
* `C60_unroll` (PCQ): What a loop does is what its first iteration followed by the loop does.

## C61 Errors are reported once, with a definite code, to any handler

Each primitive checked operation returns the exact value, or calls the given error handler exactly once with the code that the kind of failure determines and returns what the handler returns.

* `C61_arith` (PCQ): Sum, difference, product and negation, every integer type, every handler.
* `C61_bitwise` (PCQ): Bitwise operations never use the handler.
* `C61_cast` (PCQ): Conversion to `R` with bounds: the code tells on which side the value is (from unsigned types: `positive_overflow_error` also below the minimum, C01).
* `C61_cast_listed` (PCQ): The codes the compiler has to provide a handler for (`castErrs`; with a trap policy each of them is a rejection) are exactly those that the conversion from `T` to a range of `R` reports for some value and some range.
* `C61_decrement_refuted` (PQ): The code does not tell on which side of a range a value is: decrementing a `safe_unsigned_range<5, 10>` holding 5 reports a *positive* overflow if it is stored in an `unsigned int`, a domain error if it is stored in an `unsigned char`, and a negative overflow for the signed range.
* `C61_div` (PCQ): Quotient; remainder except `MIN % MIN`.
* `C61_listed` (PCQ): The same for the operators: the codes listed are exactly those reported for some type and some operands.
* `C61_shl` (PCQ): Left shift.
* `C61_shr_partial` (PCQ): Right shift, except the undefined case of C09.

## C62 Trapping programs that compile cannot fail

A program whose exception policies all trap and that compiles runs exactly like the same program over the unbounded integers: it ends exactly if that one does, no exception is ever thrown, no variable leaves its range, and variables, output and remaining input agree.

* `C62_cond_partial` (PCQ): Likewise comparisons; so whether a program compiles does not depend on the state.
* `C62_exact_partial` (PCQ): With trapping policies a covered expression is rejected, whatever the values of the variables, or it has its integer value, whatever the values of the variables. No exception, ever.
* `C62_input` (PQ): Reading a safe variable from a stream never compiles with a trapping policy.
* `C62_total_partial` (PCQ): A program with trapping policies that compiles runs exactly like the same program over the unbounded integers, step by step: it ends if and only if that one does, never throws, its variables stay within their ranges, and all variables, the output and the input agree.
* `C62_truth_partial` (PCQ): Likewise conditions that are the value of an expression.

## C63 Extended integer remainder is sound

checked_result operator% never has undefined behaviour or an assertion failure; a zero divisor or an operand of unknown value gives range_error; otherwise the result soundly describes the truncated remainder of the described integers.

* `C63_extreme` (PCQ): A dividend beyond the range and a divisor `b > 0`: the result is the extreme remainder of `b` on that side; it bounds the remainder of every integer of that sign, and is the remainder of some integer beyond the range.
* `C63_mod_partial` (PCQ): C63 for a dividend that is an ordinary value, excluding the same two defects as in C45 and the pair (min, min) of C07.
* `C63_refuted` (P): C63 fails: 130 % 5 = 0 is reported as exactly 4; with a negative divisor the reported remainder is not even a bound: 128 % -5 = 3 is reported as -6 and -129 % -5 = -4 as 6; -128 % 128 = 0 is reported as -128.
* `C63_total` (PCQ): No operands (as the library makes them) lead to undefined behaviour or a failing assertion; a zero divisor and operands whose value is unknown give `range_error`.

## C64 Extended integer bitwise operators

checked_result |, & and ^ give the value with the right bits for two ordinary values, and range_error if either operand is an error; they never read the value of an erroneous operand.

* `C64_errors` (PQ): C64: if either operand is an error of any kind, the result is `range_error`: no value is claimed and no union member is read.
* `C64_values` (PCQ): C64: on two ordinary values the result is the value of the type with the right bits.

## C65 Extended division of overflow markers

When checked_result operator/ reports an overflow, the true quotient has the sign of that overflow or is zero; a marker divided by a nonzero value is the marker of the product of signs; division by zero gives the marker with the sign of the dividend, and range_error for 0/0.

* `C65_bound_only` (P): The marker is a bound, not a description: `128 / 2 = 64` is reported as being above 127.
* `C65_markers` (PCQ): C65: the exact outcome of dividing an overflow marker by an ordinary value: the marker on the side of the sign.
* `C65_sign` (PCQ): C65: a quotient that is reported as an overflow has the sign of that overflow (or is zero), whatever the operands.
* `C65_zero` (PCQ): C65: division by zero gives the overflow marker with the sign of the dividend, and `range_error` for zero.

## C66 No false alarms

A program whose values over the integers all fit (operands and results the type the promotion policy chooses, stored and read values their variables) throws no exception and ends in exactly the state the integer program ends in, unless the compiler rejects it.

* `C66_cond_partial` (PCQ): Conditions: if every operation fits and both sides of every comparison that is made fit the type in which they are compared, the condition is what it is over the integers.
* `C66_expr_partial` (PCQ): Expressions: if every operation fits, the expression has the value it has over the integers.
* `C66_operator_partial` (PCQ): One operator of the library, any promotion policy, exception policies that throw or trap: if both operands and the result over the integers are representable in the type chosen by the promotion policy (shifts: also the count is in order; products that are zero for all values of the operand types: always), the operator returns that result, unless the compiler rejects it.
* `C66_program_partial` (PCQ): Whole programs: if everything the program computes over the integers fits (operations the types in which they are carried out, values the variables they are stored in, numbers read the variables they are read into), the program runs exactly like the integer program: it ends if and only if that ends, in the same state with the same output, and no exception is thrown on the way.

## C67 What is rejected depends on types only

An operator, comparison or conversion is rejected by the compiler for all operand values of its types or for none; a program all of whose operations are accepted never meets a rejected one at run time, and if its values fit it does exactly what the integer program does. Example: Euclid's algorithm on safe<unsigned> ends without exception with the greatest common divisor for all inputs.

* `C67_compare` (PCQ): Comparisons: rejected for all operand values or for none.
* `C67_compiles_partial` (PCQ): The two ways of saying that a program compiles: if every operation is accepted for some operands, every statement is accepted in every state.
* `C67_cond_partial` (PCQ): Conditions: if every operator and comparison in it is accepted for some operands, the condition is rejected in no state.
* `C67_construct` (PCQ): Conversions to a safe type: rejected for all values or for none. Here also policies that ignore errors.
* `C67_expr_accepted_partial` (PCQ): An expression that has a value in one state is accepted.
* `C67_expr_partial` (PCQ): Expressions: if every operator in it is accepted for some operands, the expression is rejected in no state.
* `C67_expr_uniform_partial` (PCQ): So an expression that has a value in one state within the ranges is rejected in none.
* `C67_gcd` (PCQ): For all values of the variables: the program ends, without an exception, and `a` is the greatest common divisor.
* `C67_operator_partial` (PCQ): One operator on covered operand types, any promotion policy, exception policies that throw or trap: it is rejected for all operand values or for none.
* `C67_program_partial` (PCQ): Whole programs: if every operation is accepted for some operands, no execution, of any length, from any state within the ranges, with any input, meets a rejected one.
* `C67_toBuiltin` (PCQ): Conversions to a built-in type: rejected for all values or for none. Here also policies that ignore errors.
* `C67_total_partial` (PCQ): C66 and C67 together: an accepted program whose values all fit does exactly what the integer program does.

## C68 The predefined policies do what their comments say

loose_exception_policy throws on arithmetic errors and ignores others; loose_trap_policy traps arithmetic errors and ignores others; strict_exception_policy throws on every kind of error; strict_trap_policy traps every error; default_exception_policy is strict_exception_policy.

* `C68_default` (none): C68: the policy used when none is given is the strict one that throws.
* `C68_looseException` (P): C68, `loose_exception_policy`: throws on arithmetic errors, ignores all others.
* `C68_looseTrap` (P): C68, `loose_trap_policy`: an operation that can meet an arithmetic error does not compile, all other errors are ignored.
* `C68_strictException_partial` (P): C68, `strict_exception_policy` throws on every error except the use of an uninitialised value (next theorem).
* `C68_strictException_refuted` (none): "Throw at runtime on any kind of error" (exception_policies.hpp:144) is not so: default construction, the use of an uninitialised value, is ignored.
* `C68_strictTrap` (none): C68, `strict_trap_policy`: an operation that can meet any error does not compile.
* `C68_ub_unused` (PQ): C68: no error has the class `undefined_behavior`; the handler a policy gives for it is never asked, at run time or compile time, so that the third argument of `exception_policy` has no effect.

## C69 A safe integer as a condition

Converted to bool, as in if(x), !x or while(x), a safe value or literal is false exactly if it is zero, as for built-in integers.

* `C69_builtin` (P): Built-in values are tested against zero.
* `C69_ignore_partial` (PCQ): With an ignoring policy the conversion of other values than 0 and 1 is undefined behaviour.
* `C69_literal_partial` (PCQ): Literals: 0 and 1 are converted at compile time whatever the policy; larger ones do not compile.
* `C69_refuted` (P): C69 fails: `safe<int> x = 2; if(x)` throws, and so does -1; with an ignoring policy it is undefined behaviour.
* `C69_safe_partial` (PCQ): With a throwing policy, exactly what happens to a safe value: 0 and 1 are converted, the others throw.
* `C69_sound_partial` (PCQ): Whatever the policy: an answer, if there is one, is right.
* `C69_trap` (PCQ): With a trapping policy no safe value is accepted as a condition, not even one whose type has only the values 0 and 1.

## C70 The stepper motor program of the tutorial

Sent from any position to any position of its range, the motor of example93.cpp arrives in as many interrupts as the distance, without an exception, undefined behaviour or a failed assertion, with the windings advancing one phase per step and all delays in range; except that a move by one step never stops and ends with a range exception.

* `C70_arrives` (PCQ): Wherever the motor is and wherever it is sent, unless the target is exactly one step away, the program ends without an exception, an undefined operation or a failed assertion; the motor is at the target after exactly as many interrupts as the distance, is idle, its interrupt is disabled and the windings show the phase that belongs to the distance.
* `C70_course` (PCQ): On the way, after `k` interrupts, the motor is `k` steps from where it started, on the side of the target; the windings are `k + 1` phases (`k` once it is idle) from the first; the delay is at least 6400 and at most 1280000; and the state is never `ramp_const`: the maximal speed is not reached.
* `C70_one_step` (PCQ): A target exactly one step away is missed: the motor starts, never begins to slow down, runs through the target to the end of the range and the program ends with the exception that leaving the range of `position_t` raises.

## C71 Exceptions are thrown exactly when something does not fit

An accepted operator, expression, condition or whole program throws an exception if and only if, over the integers, some operation is undefined or has an operand or result that the type chosen by the promotion policy cannot represent, or a stored or read value is outside the range of its variable. Exempt are products that are zero by type and order comparisons of types whose ranges are apart.

* `C71_cond_partial` (PCQ): Conditions: an accepted covered condition throws exactly when one of the operations or comparisons that are carried out does not fit (`&&` and `||` evaluate their right operand only if needed).
* `C71_expr_partial` (PCQ): Expressions: an accepted covered expression throws exactly when one of its operations does not fit.
* `C71_fits_partial` (PCQ): Whole programs, the converse of C66: if an execution ends without an exception (thrown, or caught on the way), then everything the program computes over the integers fits.
* `C71_operator_partial` (PCQ): One operator of the library, any promotion policy, exception policies that throw or trap. If the compiler accepts it, it throws an exception exactly when an operand or the result over the integers is not representable in the type chosen by the promotion policy or the result is undefined (for shifts also: the count is not in order); products that are zero for all values of the operand types never throw.
* `C71_program_partial` (PCQ): Whole programs, both directions: a finished execution of an accepted covered program, started with a good input stream, threw no exception (uncaught or caught) if and only if everything the program computes over the integers fits.

## C72 The example programs of the library do what they should for all values

With its constants replaced by arbitrary values of their types, each small example program of the library ends with the exact result exactly when its variables and results can hold the exact values, throws otherwise, and is rejected where the example says so.

* `C72_example1` (PCQ): example1.cpp: for all initial values `x`, `y` of type `int` the safe program stores the sum, if `x`, `y` and the sum are values of `int8_t`; otherwise it throws (the example's `INT_MAX` already at the initialisation of `x`).
* `C72_example10` (PCQ): example10.cpp: for all arguments of type `int` the product is printed, if `x` is not negative, `y` is in the range 0 to 127 and the product fits `unsigned`; otherwise the program throws (also for `0 * -1`).
* `C72_example11` (PCQ): example11.cpp: the program never throws at `x + y`: contrary to the comment, there is no exception, and the sum is exact.
* `C72_example13` (PCQ): example13.cpp, example14.cpp: for all initial values of type `int` the quotient is printed; the program throws iff the divisor is zero or the quotient is not an `int`.
* `C72_example16` (PCQ): example16.cpp: for every initial value of type `long` the function is called, if the value is an `int`; otherwise the program throws.
* `C72_example17` (PCQ): example17.cpp: the call is rejected by the compiler.
* `C72_example18` (PCQ): example18.cpp: a literal of any value can be passed to the function if the value is an `int`.
* `C72_example19_assign` (PCQ): example19.cpp: `i = v` throws iff `v` is not in the range 7 to 24.
* `C72_example19_sum` (PCQ): example19.cpp: `i + j` never throws and is exact; its type has the range 7 to 279.
* `C72_example19_times` (PCQ): example19.cpp: `i *= v` compiles, contrary to the comment; it throws iff the product is not in the range 7 to 24.
* `C72_example1_builtin` (PCQ): the same program without the library stores a wrong value (or none, but never reports it), whenever the sum is not a value of `int8_t`
* `C72_example2` (PCQ): example2.cpp: for every initial value of type `int`, `++x` adds one; for `INT_MAX` it throws, and only then.
* `C72_example20` (PCQ): example20.cpp: for unsigned numbers the larger minus the smaller is a success; the smaller minus the larger is below the range, and the sum of two such results also is.
* `C72_example3` (PCQ): example3.cpp: for every initial value of type `int`, `--x` on an unsigned number subtracts one; it throws iff the number is zero (a negative initial value is not accepted in the first place).
* `C72_example4` (PCQ): example4.cpp: for all initial values `a`, `b` of type `int` the right line is printed, if neither is negative; otherwise the program throws (for a negative `a` at the comparison, although `a < b` would be true).
* `C72_example5` (PCQ): example5.cpp: an index is accepted iff it is one of the 37 elements of the array.
* `C72_example6` (PCQ): example6.cpp: whatever two numbers the text starts with, the safe program reads and prints them if both are values of `int`; otherwise it throws.
* `C72_example6_builtin` (PCQ): the same program without the library ends normally whatever is in the stream; if a number is not a value of `int`, it goes on with another one
* `C72_example7` (PCQ): example7.cpp: the contract is enforced: for all unsigned `hours` and `minutes` the function returns the number of minutes, if `hours ≤ 23` and `minutes ≤ 59`; otherwise it throws. But, contrary to the comment (example7.cpp:38), the type of the result is not the range 0 to 1439: the constant `60` is an arbitrary `int` to the library, and the result type is `safe<int>`.
* `C72_example8` (PCQ): example8.cpp: for all initial values `x`, `y` of type `int` the program stores `y - x`, if `0 ≤ x ≤ y`; otherwise it throws.
* `C72_example81` (PCQ): example81.cpp: the addition is rejected by the compiler.
* `C72_example82` (PCQ): example82.cpp: with automatic promotion the same addition compiles, never fails, and is exact for all values.
* `C72_example83` (PCQ): example83.cpp, for literals with any values of `signed char`: if their sum is in the range of `z` the program compiles and `z` is that sum, otherwise the compiler rejects it.
* `C72_example84` (PCQ): example84.cpp: the function never fails, its results are exact.
* `C72_example84_input` (PCQ): example84.cpp, with input: whatever two numbers the text starts with, if both are within the range the results are exact; otherwise an exception is thrown.

## C73 The trap policy rejects exactly what could throw

With an exception policy that traps, the compiler accepts an operation, a construction or a comparison if and only if it fits its result type for all values of the operand types; this is if and only if the same operation with a policy that throws returns a value for all operand values.

* `C73_arith` (PCQ): Sum, difference and product of any operand types: accepted if and only if operands and result are in the result type for all values (or the product is zero for all of them).
* `C73_arith_throwing` (PCQ): Sum, difference and product, without conditions on the operand types.
* `C73_compare` (PCQ): Comparisons: accepted with a policy that traps if and only if all values of both types are values of the type in which they are compared.
* `C73_compare_refuted` (PCQ): The values of the range -10..5 of `int` are less than those of the range 6..9 of `unsigned`. With a policy that throws `<` is true for all values; with one that traps it is rejected.
* `C73_construct` (PCQ): Construction and assignment of a safe type: accepted with a policy that traps if and only if every value of the source type is one of the target type.
* `C73_construct_throwing` (PCQ): Against a policy that throws: accepted if and only if that one never throws.
* `C73_operator_partial` (PCQ): One operator, any promotion policy, an exception policy that traps. The compiler accepts it if and only if there is a result type and the operation fits that type for all values of the operand types.
* `C73_operator_refuted` (PQ): Outside the covered operand types: `safe_signed_range<INT_MIN, 0> % safe_signed_range<-3, -1>` is accepted with a policy that traps, although a value does not fit: `INT_MIN % -1` is undefined, with a policy that throws as well.
* `C73_throwing_partial` (PCQ): The same against a policy that throws: the operator is accepted with the policy that traps if and only if with the policy that throws it returns a value for all values of the operand types.
* `C73_toBuiltin` (PCQ): Conversion to a built-in type: accepted with a policy that traps if and only if every value of the stored type is one of the target type. The range of the source plays no role.
* `C73_toBuiltin_refuted` (PCQ): A `safe_signed_range<0, 200>`, stored in a `short`, converts to `unsigned char` without exceptions whatever its value; with a policy that traps the conversion is rejected, because the stored type has values that do not fit.

## C74 Safe types are a drop-in replacement

If a program whose variables are of safe types (native promotion, policies that throw or trap) ends without an exception, thrown or caught, then the same program with every safe type replaced by its built-in type ends in the same state, with the same input read and output written, and without undefined behaviour. Equivalently, whenever the built-in program has undefined behaviour or another result, the safe program reports it.

* `C74_char_round_trip` (PCQ): Built-in characters: what is written is read back, unless it is white space.
* `C74_condition_partial` (PCQ): Conditions.
* `C74_ends_partial` (PCQ): The same for runs of any length.
* `C74_expression_partial` (PCQ): Expressions, native promotion, policies that throw or trap: if the expression with safe types returns a value, the same expression with the built-in types has no undefined behaviour and the same value.
* `C74_program_partial` (PCQ): Whole programs with loops, input, output and handlers: a run that ends without an exception, thrown or caught, is step by step the run of the program with built-in types: the same variables, input consumed and output written, and no undefined behaviour.
* `C74_refuted_automatic` (PQ): with automatic promotion the sum of two `int` has more than 32 bits, as a built-in expression it is undefined.
* `C74_refuted_char_input` (PQ): and reading " 78" stores the number 78 with the first and the code of the character 7, which is 55, with the second, leaving the rest of the text to be read.
* `C74_refuted_char_output` (PCQ): Characters: a program that writes a safe type stored in a character type writes the number, the built-in program the character. The texts differ for every value;
* `C74_refuted_compare` (PQ): a comparison of disjoint ranges is decided by the library, and wrong as a built-in expression when it mixes signed and unsigned types;
* `C74_refuted_shl` (PQ): The full statement (all operands, all policies) is false: a negative number shifted by zero is returned by the library and undefined as a built-in expression in C++ 14;
* `C74_reported_partial` (PCQ): Every error of the program with built-in types is reported: if its run has undefined behaviour (or any outcome other than that of the program with safe types), then the program with safe types, if it ends at all, throws an exception, catches one, or was not accepted by the compiler.
* `C74_three_partial` (PCQ): Together with C71: if everything fits (C66), the program with safe types, the program with built-in types and the computation over the integers end alike.

## C75 Exactly where the low level operations deviate

For each low level operation that is not right for all operands, a closed condition on the operands says exactly when it is right: checked modulus, right_shift, the bounded cast and round_out on built-in integers; and + - unary minus * / % << >> on extended integers, where right means that the outcome describes the mathematical result for all integers the two operands stand for. No other operands are affected.

* `C75_add` (PCQ): C75, addition of extended integers: wrong exactly when a value is added to a marker of the opposite side.
* `C75_cast` (PCQ): C75, the bounded cast: for a value outside the bounds, the side reported is wrong exactly when the value is below the bounds and its type is unsigned.
* `C75_div` (PCQ): C75, division (divisor not 0). The operands for which the outcome is wrong: * a value other than 0 over "below" of an unsigned type; the minimum of a signed type over "above"; * "below" over "above" and the reverse; * "below" over a value other than 1 and -1; "above" over a value other than 1.
* `C75_mod` (PCQ): C75, remainder (divisor not 0). The operands for which the outcome is wrong: * the minimum by the minimum and the minimum by "above" (signed types); a value other than 0 by "below" (unsigned types); * any marker by a value other than 1.
* `C75_modulus` (PCQ): C75, `checked::modulus`: wrong exactly for minimum % minimum of a signed type.
* `C75_mul` (PCQ): C75, multiplication: wrong exactly for -1 times "above" (either order) and for two "below" of an unsigned type.
* `C75_neg` (PCQ): C75, unary minus: right exactly for all values, unknown errors, "below" of a signed type and "above" of an unsigned type.
* `C75_rightShift` (PCQ): C75, `checked::right_shift`: undefined exactly when an unsigned type at least as wide as `int` is shifted by its width; in all other cases it returns.
* `C75_roundOut` (PCQ): C75, `round_out`: undefined exactly for signed types at least as wide as `int` and values in the upper half of the positive or the lower half of the negative range.
* `C75_shl` (PCQ): C75, left shift of two values: wrong exactly when a negative value shifted by a positive count gives the minimum.
* `C75_shr` (PCQ): C75, right shift of two values: wrong exactly when a negative value shifted by a negative count gives the minimum, and undefined exactly when a positive value of an unsigned type at least as wide as `int` is shifted by the width.
* `C75_sub` (PCQ): C75, subtraction: a marker minus a value is wrong when the value pulls it back towards the range; a value minus a marker is wrong except: from -1 on in signed types and only at the maximum in unsigned types (minus "below"), negative values in signed types and all values in unsigned types (minus "above").

## C76 Exactly where the operators of safe types deviate

With a throwing policy, / % << and >> on safe types, under every promotion policy, return the exact result, throw, or do not compile, except for exactly the operands that a closed condition on types and values describes: for << a negative value or count where the ranges of the operand types promise a result within bounds; for >> in an unsigned type a count equal to its width, or a negative count that is overlooked because the left range starts at zero; for % under native promotion the minimum by itself, or by -1 when the divisor cannot be zero; under other policies also operands that the result type does not have, where the ends of the ranges of the operand types hide this from the compiler, so that they are converted without a check.

* `C76_agree` (PCQ): With native promotion the two descriptions of the remainders that go wrong agree.
* `C76_agree_shift` (PCQ): With native promotion the two descriptions of the shifts that go wrong agree.
* `C76_div` (PCQ): C76 for `/`, with any promotion policy: the quotient (and then the divisor is not zero), an exception, or a program that does not compile - if and only if the operands are not those of `QuotWrong`.
* `C76_left` (PCQ): C76 for `<<`, with any promotion policy: the shifted value (and then the count is not negative), an exception, or a program that does not compile - if and only if the operands are not those of `LeftWrong`.
* `C76_mod` (PCQ): C76 for `%`: exact (and then the divisor is not zero), an exception, or a program that does not compile - if and only if the operands are not those of `RemWrong`.
* `C76_rem` (PCQ): C76 for `%`, with any promotion policy: the remainder (and then the divisor is not zero), an exception, or a program that does not compile - if and only if the operands are not those of `ModWrong`.
* `C76_right` (PCQ): C76 for `>>`, with any promotion policy: the shifted value (and then neither operand is negative), an exception, or a program that does not compile - if and only if the operands are not those of `RightWrong`.
* `C76_shl` (PCQ): C76 for `<<`: exact (and then the count is not negative), an exception, or a program that does not compile - if and only if the operands are not those of `ShlWrong`.
* `C76_shr` (PCQ): C76 for `>>`: exact (and then neither operand is negative), an exception, or a program that does not compile - if and only if the operands are not those of `ShrWrong`.

## C77 Result types are as narrow as the operands allow

The type of the result of +, -, * (and of / by a range without zero, and of shifts of non-negative values by non-negative counts) is bounded by the least and the greatest mathematical result, or the limit of the base type where that does not represent it; |, & and ^ of ranges from zero are bounded by the least 2^n-1 that no result exceeds. Under native promotion the base type is the type of the built-in expression; under automatic promotion it is the smallest type of its signedness that holds every result. Consequently, under a policy that traps, op= compiles exactly if every possible result is a value of the variable.

* `C77_arith` (PCQ): C77 for `+`, `-`, `*`: if the type `R` chosen by the promotion policy represents the ends of the operand ranges, the result type is bounded by the least and the greatest exact result (by the limits of `R` where `R` does not represent them).
* `C77_automatic` (PCQ): Automatic promotion of `+`, `-`, `*`: when the widest type represents the ends of both operand ranges and every result, the chosen type is the smallest of its signedness that represents every result.
* `C77_automatic_div` (PCQ): Automatic promotion of `/` when the divisor range excludes zero.
* `C77_automatic_shl` (PCQ): Automatic promotion of `<<` for values and counts that are not negative: when the widest type of the signedness of the left operand represents every result, the chosen type is the smallest that does.
* `C77_automatic_shr` (PCQ): Automatic promotion of `>>` for values that are not negative: the chosen type is the smallest that represents the value shifted by any count that is not negative (negative counts are possible only for an unsigned left operand; the smallest count must fit in the widest signed type).
* `C77_bitwise` (PCQ): C77 for `|`, `&`, `^` on ranges that start at zero: the result type starts at zero, and its upper end is the least number of the form `2 ^ n - 1` (with `n` at least 1) that no result exceeds.
* `C77_compound` (PCQ): `t += u`, `t -= u`, `t *= u` on a safe variable with a policy that traps, when the result type represents the ends of the operand ranges: the program compiles if and only if every possible result is a value of `R` and of the variable.
* `C77_compoundBit` (PCQ): `t |= u`, `t &= u`, `t ^= u` on a safe variable with a policy that traps, ranges without negative numbers that `R` holds: the program compiles if and only if every value of the type of `t op u` is one of the variable.
* `C77_div` (PCQ): C77 for `/` when the divisor range excludes zero.
* `C77_native` (PQ): Native promotion: the base type of the result of an operator is the type of the built-in expression on the base types of the operands: their common type, for shifts the promoted type of the left operand.
* `C77_shl` (PCQ): C77 for `<<` when values and counts are not negative.
* `C77_shr` (PCQ): C77 for `>>` when values and counts are not negative and no end of the range of counts is the full width of an unsigned type (otherwise the program does not compile, C76).

## C78 Exactly which bitwise operators compile and stay within the bounds of their type

The operators |, & and ^ on safe types compile exactly if the result type is unsigned or the bit patterns of the upper ends of both operand types (of one of them for &) are values of the result type. All results are within the bounds of the type of the result exactly if the largest bit patterns of both operand types (of one of them for &) are. Complement compiles exactly if the promoted type is unsigned or the type has non-negative values, and its result is within bounds exactly if the promoted type is unsigned or the operand is negative.

* `C78_bounds` (PCQ): Exactly which bitwise operators stay within the bounds of their type: with the largest bit patterns that the operand types allow, both - for `&` one of them - must be within the upper bound. So an operand that can be negative is fine only if the other one (for `&`) is a mask that the bound covers, or if the result type is unsigned and its bound is its maximum.
* `C78_compiles` (PCQ): Which bitwise operators compile: all with an unsigned result type; with a signed one those for which the larger - for `&` the smaller - of the upper ends, as bit patterns, is not negative.
* `C78_compl` (PCQ): Complement under native promotion: `~x` compiles exactly if the promoted type is unsigned or the range of `x` reaches zero, and then the result is within the bounds of its type exactly if the promoted type is unsigned or `x` is negative.

## C79 The trusted model of the built-in operators is two's complement word arithmetic

The operators on mathematical integers by which the model describes built-in C++ integers agree with the operations on machine words (Lean's BitVec): + - * / % unary minus << >> and the comparisons give the value of the word operation and are undefined exactly when the word operation overflows (signed), the divisor is zero, the count is out of range, or a signed left shift loses bits. Conversions keep the low bits; promotion gives int exactly if int has all values; the usual arithmetic conversions give the promoted type that has all values of the other, else the unsigned type of the larger width.

* `C79_add` (PCQ): C79: addition.
* `C79_compare` (PCQ): C79: comparisons are signed or unsigned comparisons of words.
* `C79_conv` (PQ): C79: conversion to an integer type keeps the low bits.
* `C79_div` (PCQ): C79: division.
* `C79_mod` (PCQ): C79: remainder; undefined in the same cases as division.
* `C79_mul` (PCQ): C79: multiplication.
* `C79_neg` (PCQ): C79: negation.
* `C79_promote` (PCQ): C79: the integral promotion gives `int` if `int` has all values of the type.
* `C79_shl` (PCQ): C79: left shift. On signed types it is undefined for negative words and if a bit set is shifted out.
* `C79_shr` (PCQ): C79: the shift operators; `n` is the shift count.
* `C79_sub` (PCQ): C79: subtraction.
* `C79_uac` (PCQ): C79: the usual arithmetic conversions give the promoted type that has all values of the other one; if neither has, the unsigned type of the larger width.

## C80 The first safe version of the stepper motor program

Sent from any position to any other, test() of example92.cpp with motor2.c ends, and not in undefined behaviour. The motor arrives at its target exactly if the target is a position of the type and the distance is 1 to 220, 222, 437 or 439 to 6275 steps; otherwise the program ends with an exception. At distances 221, 223 to 436 and 438 the exception comes only after the motor has run 6501 or 6502 steps, past its target. Sent to where it is, a motor at rest stays there.

* `C80_arrives` (PCQ): C80. Sent to a position of its type whose distance is 1 to 220, 222, 437 or 439 to 6275 steps, the motor gets there and the program ends, whatever the previous run left in the other variables.
* `C80_ends` (PCQ): C80. Whatever the target, the program ends, and not in undefined behaviour.
* `C80_iff` (PCQ): C80. Exactly which moves succeed.
* `C80_runaway` (PCQ): C80. At a distance of 221, 223 to 436 or 438 steps the motor does not stop at its target: the exception comes 6501 or 6502 steps from the start (if that is a position at all), more than 6000 steps too far.
* `C80_stays` (PCQ): C80. Sent to where it is, a motor at rest stays there: the one interrupt of the `do` loop finds it idle. (Its comparator value still grows; it has to be in range for this.)
* `C80_stops` (PCQ): C80. Sent anywhere else the program ends with an exception: to a position outside the type of positions, or at any other distance.

## C81 Shifts of extended integers with overflow markers and unknown operands

For checked_result operands of one type that may be values, overflow markers (the value is known to lie beyond the range) or other errors (nothing is known), the outcome of << and >> soundly describes x*2^y, rounded towards zero, for all integers x and y that the operands describe; no operands lead to undefined behaviour or a failing assertion; an unknown operand gives range_error, except for zero shifted.

* `C81_refuted` (PQ): C81 fails for the excluded operands: -129 shifted right by one is -64 and 128 is 64, but both are reported as beyond the range; for an unsigned type 5 shifted by a count of -1 is 2 or 10, but is reported as 0 or as beyond the range.
* `C81_shl_iff` (PCQ): `<<` is right for all operands except: something above the range shifted towards zero, something below the range of a signed type shifted towards zero, and a value of an unsigned type, at least two, shifted by a count known only to be below zero.
* `C81_shl_partial` (PCQ): C81 (`<<`, partial: not a marker shifted by a negative count, nor a positive unsigned value by a count below zero): the outcome soundly describes `x * 2^y` for all integers `x`, `y` described by the operands, overflow markers and unknown operands included. (`Near`: a marker may also stand for the extreme value itself, see C46.)
* `C81_shr_iff` (PCQ): `>>` is right for all operands except: something above the range shifted towards zero, something below the range of a signed type shifted towards zero, a positive value of an unsigned type whose double is below the maximum, shifted by a count known only to be below zero; and the undefined case of C46.
* `C81_shr_partial` (PCQ): C81 (`>>`, partial: not a marker shifted by a positive count, nor a positive unsigned value by a count below zero, nor the undefined case of C46): the outcome soundly describes `x * 2^(-y)`.
* `C81_total` (PCQ): C81: no operands, errors of any kind included, lead to undefined behaviour or a failing assertion in `<<`, and only the one case of C46 does in `>>`.
* `C81_unknown` (PCQ): C81: an unknown operand gives `range_error` in both operators, except that zero shifted by an unknown count is zero.

## C82 Commutative operators do not depend on the order of their operands

a + b and b + a, a * b and b * a, a & b and b & a (also |, ^), a == b and b == a (also !=) have the same type and the same outcome: the same value, both throw, both do not compile or both are undefined; a < b is b > a and a <= b is b >= a.

* `C82_bitwise_partial` (PCQ): C82, `&`, `|`, `^`: the same type and value in both orders.
* `C82_code_refuted` (PQ): The codes may differ where neither operand fits in the result type: the sum of 200 and -200 under automatic promotion (both known at compile time) is computed in 8 bits, and the exception tells of the operand that is converted first.
* `C82_equal_partial` (PCQ): C82, `==` and `!=`: the same in both orders, as for `+`.
* `C82_native` (PCQ): C82: under native promotion the two orders agree in everything, the code of the exception included.
* `C82_native_equal` (PCQ): C82: native comparisons agree in everything.
* `C82_order` (PQ): C82, the orders: `a < b` is `b > a`, `a <= b` is `b >= a`, in every respect.
* `C82_outcome_partial` (PCQ): C82, `+` and `*`, the outcome, under every exception policy: the same value, the same refusal to compile, the same undefined behaviour; if one order throws so does the other.
* `C82_refuted` (PQ): C82 fails under the emulation policy for two widths it does not know: with all its types 8 bits wide, the sum of a 16-bit and a 32-bit operand has the type of the left one. So 1 + 100000 throws, 100000 + 1 does not.
* `C82_type_partial` (PCQ): C82, `+` and `*`, the type: the same in both orders (under the emulation policy if it knows a width, see `Ranked`).
* `C82_user_refuted` (PQ): With a handler of the user that throws for some codes and returns for others even the kind of outcome depends on the order: the conversion that is tried first decides. Hence the hypothesis `Plain`.

## C83 Portability: versions of a program never end with different results

Take two versions of a program that differ in the types of the variables, constants and casts, in the promotion and exception policies, in the handlers and in the machine they run on. If both end without an exception they end with the same values of all variables, the same output and the same rest of the input. If one ends without an exception, every other version without handlers ends, with the same result or with an exception; a version with policies that trap and that compiles ends with the same result.

* `C83_blame` (PCQ): C83 for all programs: the same for two versions of one text.
* `C83_ends_partial` (PCQ): C83. If one version ends without an exception, every other version without handlers ends as well: with the same result, with an exception, or it does not compile (a policy that traps). It never runs forever and never has undefined behaviour.
* `C83_other` (PCQ): C83 for all programs: a version that does not end well where another one did. If one version ends without an exception in a clean run, and the other, without handlers, is given at least as many nested steps as the text needs, then it ends well with the same result, ends with an exception, does not compile, or has carried out an operation that is not clean.
* `C83_same_partial` (PCQ): C83. Two versions of a program with the same text, on machines `A` and `A'`, that both end without an exception, thrown or caught, end with the same values of all variables, the same output and the same rest of the input.
* `C83_trap_partial` (PCQ): C83. A version all of whose policies trap, and that compiles, ends if and only if the computation does that any other version follows: if one version ends without an exception, so does this one, with the same result.

## C84 Refactoring: laws of integer arithmetic may be used on programs

Two expressions that are equal over the integers (by associativity, distributivity or any other law), whatever their types, policies and machines, have the same value wherever both are evaluated without an exception. Two programs that do the same over the integers end with the same variables, output and rest of the input if both end without an exception; if one does, the other, without handlers, ends with the same result or an exception.

* `C84_assign` (P): an expression may be replaced by one with the same value over the integers
* `C84_blame` (PCQ): C84 for all programs: two programs that do the same over the integers, run on whatever machines, from the same state: if both end without an exception and the results differ (in a variable, the output or the rest of the input), one of the runs has carried out an operation that is not clean.
* `C84_ends_partial` (PCQ): C84: if one form ends without an exception, the other form, if it has no handlers, ends as well, with the same result or with an exception, or it does not compile.
* `C84_expression_partial` (PCQ): C84, expressions: two expressions with the same value over the integers, whatever their types, policies and machines, have the same value wherever both are evaluated without an exception.
* `C84_incDec` (P): `++x` is `x += 1`, `--x` is `x -= 1`
* `C84_ite` (P): branches may be replaced, and the condition by one with the same value
* `C84_ite_not` (P): `if(!c) a else b` is `if(c) b else a`
* `C84_opAssign` (P): `x op= e` is `x = x op e`
* `C84_output` (P): what is written may be replaced
* `C84_program_partial` (PCQ): C84, programs: two programs that do the same over the integers, whatever their types, policies, handlers and machines, end with the same values of all variables, the same output and the same rest of the input if both end without an exception.
* `C84_seq` (PCQ): parts of a sequence may be replaced
* `C84_seq_laws` (PCQ): sequences are associative, `skip` does nothing
* `C84_unroll` (P): a loop is its first round and then the loop
* `C84_while` (PCQ): the body of a loop may be replaced, and the condition

## C85 The texts printed of results, intervals and types tell everything

The text of a checked_result is its flag followed by its value or its error text and message, and two results with the same text are the same value or the same error with the same message. Likewise the texts of an interval, of a value with the range of its type (range_value, and result_display, which prints in hexadecimal) and of safe_format determine the ends, the range, the name of the base type and the value. A reader of numbers gets the value of a result back from its text.

* `C85_display` (PCQ): C85: `result_display` tells the range of the type and the value, although the ends are printed as numbers of an unsigned type.
* `C85_example20` (PCQ): example20.cpp, for all `x` and `y`: the difference of unsigned numbers is printed after the flag "0", if it is not negative; otherwise it is a negative overflow, also when it is added to itself
* `C85_flag_refuted` (PCQ): The flag and the value are not separated: a result with the value 1 is printed as "01"; of "0-3", the text of the value -3, a reader of numbers takes 0 and leaves "-3"; a result whose value is not negative is read back.
* `C85_format` (PCQ): C85: `safe_format` tells the name of the base type (a name without `>`), the range and the value.
* `C85_interval` (PCQ): C85: the text of an interval tells its ends.
* `C85_range` (PCQ): C85: the text of a value with the range of its type is the text of the range and the numeral, and tells the range and the value.
* `C85_result` (PCQ): C85: a `checked_result` is printed as its flag and its contents: for a value (of a type that is not `unsigned char`) the digit 0 and the numeral; for an error the digit 1, the text of the code and the message.
* `C85_result_injective` (PCQ): C85: the text tells the contents: results with the same text are the same value, or the same error with the same message.

## C86 Floating point values as sources

checked::cast of a floating point value to an integer type gives the number if it is an integer of the type, and otherwise reports an error. A safe integer is made from a floating point value only if it is an integer in its range. The comparisons of checked_operation for types without a specialisation answer the question asked.

* `C86_cast` (PCQ): Exactly what the cast does: it drops the fraction, without report; if the integer part does not fit, and for infinities and NaN, the behaviour is undefined.
* `C86_construct` (PCQ): A safe integer cannot be made from a floating point value: if the greatest value of the floating point type is beyond the stored type, which holds for the floating point types of IEEE 754 and all integer types of at most 64 bits, the program does not compile, whatever the value.
* `C86_default_equal_partial` (P): The default `equal` is right exactly if its first argument is greater; it says that equal values are different and that a smaller value is equal to a greater one.
* `C86_default_equal_refuted` (none): `equal` of equal values is false, of 1 and 2 is true
* `C86_default_order` (P): The default `less_than` and `greater_than` answer the question asked.
* `C86_ends` (PCQ): the ends of a floating point type: the largest value is one unit in the last place below `2 ^ max_exponent`, the smallest normal one is `2 ^ (2 - max_exponent)`
* `C86_exact_partial` (PCQ): An integer that fits is kept.
* `C86_ieee` (PCQ): the types `float` and `double` of IEEE 754 meet the hypothesis of `C86_construct` for every integer type of at most 64 bits
* `C86_refuted` (PCQ): 2.5 becomes 2 and -2.5 becomes -2 without report; 2^40, an infinity and NaN are undefined behaviour for `int`
* `C86_silent` (PCQ): No error is ever reported.

## C87 The inherited members of numeric_limits are true of safe types

numeric_limits of a safe type: every non-negative number of `digits` binary digits is a value; `is_signed` holds exactly if the type has negative values; `is_modulo` holds exactly if results beyond the limits wrap around.

* `C87_digits10` (PCQ): `digits10` of a stored type is the largest number of decimal digits such that every number, with or without a sign if the type is signed, of so many digits is a value of the type.
* `C87_digits10_partial` (PQ): For safe types: every number of `digits10` decimal digits is a value exactly if the range has zero and the largest of these numbers.
* `C87_digits_partial` (PCQ): `digits` promises that every non-negative number of that many binary digits is a value of the type: true exactly for the types that have 0 and reach up to the maximum of the stored type.
* `C87_modulo` (PCQ): `is_modulo` says that sums, differences and products beyond the limits wrap around. They never do: whatever is returned is the exact result, for every policy that throws.
* `C87_modulo_partial` (PCQ): So `is_modulo` is right exactly for signed stored types, for which it is false.
* `C87_refuted` (PQ): `safe<unsigned>` says it is modulo and throws; a range of 0 to 10 says that it has eight binary digits; a range of 0 to 10 stored in a signed type says that it is signed and that it has all numbers of two decimal digits
* `C87_signed_partial` (PQ): `is_signed` is true of types without negative values if their stored type is signed, and right otherwise.

## C88 Whatever goes wrong, one operation on known bad operands is to blame

Take any program over safe and built-in integers, covered or not, and any execution. If it has undefined behaviour or fails an assertion, leaves a variable out of its range, ends normally with another result than over the integers, or (with exceptions caught on the way) ends otherwise than the program can end over the integers when its statements are free to throw, or does not end although it does over the integers (with handlers: wherever its statements throw), then among the operations it carried out there is one whose types and operand values are on an explicit list. With a throwing policy, and every promotion policy, the list is exact for the operators of safe types: an operation goes wrong if and only if its operands are on it. With a policy that traps this holds for the operations that compile.

* `C88_always` (PCQ): Sums, differences and products are always clean; bitwise operations are clean, with every promotion policy, exactly if they do what they should.
* `C88_blame` (PCQ): The same read backwards: if an execution has undefined behaviour or fails an assertion, or leaves a variable out of its range, or ends normally with another result than the program over the integers, then among the operations it carried out there is one that is not clean.
* `C88_blame_handlers` (PCQ): The same read backwards: an execution that ends, normally or by an exception, as the program cannot end over the integers has carried out an operation that is not clean.
* `C88_clean` (PCQ): Every program, with whatever types, operators and conversions: if each operation that is carried out during an execution is clean (a condition on the values of its operands), there is no undefined behaviour and no failed assertion, the variables are within their ranges at the end, and if no exception was caught or is thrown the result is that of the program over the integers.
* `C88_covered` (PCQ): All operations of a covered program are clean, in every execution from a state within the ranges: C59 and C60 are the special case of C88 in which the types alone rule out the values that go wrong.
* `C88_endless` (PCQ): Endless loops: if a program without exception handlers ends over the integers, within `f` nested steps, and its execution is not finished within so many steps, then among the operations it has carried out there is one that is not clean.
* `C88_endless_handlers` (PCQ): If over the integers a program always ends within `f` nested steps, wherever its statements throw, and its execution is not finished within so many steps, then among the operations it has carried out there is one that is not clean.
* `C88_exact` (PCQ): With a policy that throws on the errors the conditions are exact, whatever the promotion policy: an operation that is not clean does go wrong.
* `C88_firm` (PCQ): With a policy that throws or traps on the errors: an operation does what it should if and only if it is clean or rejected by the compiler.
* `C88_handlers` (PCQ): If all operations that an execution carries out are clean, it ends as the program may end over the integers when statements are free to throw: with the same values of the variables, the same output and the same rest of the input, normally or by an exception; or the program does not compile. Exceptions may be caught on the way, any number of times.
* `C88_may` (PCQ): without handlers, what the program may do when it ends normally is what it does over the integers
* `C88_operator` (PCQ): A clean operation of the library does what it should.
* `C88_quotient` (PCQ): Quotients and remainders are clean, with every promotion policy and a policy that throws on arithmetic errors, exactly if they do what they should.

## C89 Exceptions are thrown exactly by the operations whose values do not fit

In any execution of any program every exception is thrown by one of the operations carried out, each is caught or is the outcome, and an exception or fault that is the outcome is that of the last operation. If the operations are clean (C88) and the program compiles, an operation throws if and only if its values do not fit (operands and result the type it is computed in, a converted value its target, a number read the range of the variable): the number of exceptions, caught or not, is the number of operations that do not fit; there is none iff all fit; an exception that ends the program comes from the last operation and, if none was caught before, from the first one that does not fit.

* `C89_count` (PCQ): The number of exceptions, caught or not, is the number of operations whose values do not fit.
* `C89_explains` (PQ): All programs, all policies, all states: the exceptions of a finished execution are those of its operations, each of them caught or the outcome; an exception or fault that is the outcome is the one of the last operation; no other operation has a fault.
* `C89_fits` (PCQ): If the program is accepted by the compiler and each operation carried out is clean (`Event.Clean` of C88, a condition on types and values), then each of them throws an exception if and only if its values do not fit.
* `C89_last` (PCQ): An exception that ends the program comes from the last operation, whose values do not fit; if none has been caught before, those of all others do.
* `C89_quiet` (PCQ): There is no exception, caught or not, if and only if the values of all operations fit; the result is then that of the program over the integers.

## C90 Every outcome of reading a safe value from a stream

With a policy that throws, reading falls into disjoint cases that cover all streams, and each has one outcome. Types other than character types: nothing to read, or a minus sign first and an unsigned type: exception, the variable keeps its value; a number in range is stored; a number of the base type that is out of range is stored and then an exception is thrown; any other number: the closest value of the base type is stored and an exception is thrown; other text: zero is stored and an exception is thrown. Character types: nothing to read is undefined behaviour; a number in range is stored; any other number throws and the variable keeps its value; other text is taken for zero, without an exception if zero is in range. It is also said what is left in the stream, and that it has failed.

* `C90_char_outcomes` (PCQ): Character types, with a policy that throws. Nothing can be read: undefined behaviour. A number within the range is stored; for any other number an exception is thrown and the variable keeps its value. Other text is taken for zero, without an exception if zero is within the range; the stream has failed.
* `C90_digit` (PCQ): the decimal digits
* `C90_outcomes` (PCQ): Types that are not character types, with a policy that throws. Nothing can be read, or a minus sign comes first and the type is unsigned: exception, the variable keeps its value. A number within the range is stored. A number that is a value of the base type but out of range is stored, and then an exception is thrown. Any other number: the closest value of the base type is stored, and an exception is thrown. Other text: zero is stored, and an exception is thrown.
* `C90_stream` (PCQ): The stream afterwards when no number is read, for all types. A stream that had ended or failed has failed and is otherwise unchanged. If only white space was left, the stream is empty, at its end, and has failed. In front of a minus sign the stream of an unsigned type stops (character types are read as `int`). In front of other text it stops after white space and a sign; it is then at its end if nothing follows.
* `C90_white` (PCQ): the white space of the classic locale: space, tab, line feed, vertical tab, form feed, carriage return

## C91 Exception policies matter only where an error is raised

Call a policy stricter than another if it reacts to every error in the same way, except that it may throw where the other returns. Under the stricter policy every operator, comparison, conversion, construction and input has the same outcome as under the other, or throws an error for which the handler of the other returns; a whole program that ends without having caught an exception ends the same way, in the same state, under the other policies, or ends with such an exception. Policies whose handlers react alike cannot be told apart by any program. A handler written by the user is like throw_exception exactly if it returns for no error of its class.

* `C91_alike` (PQ): No program can tell policies apart whose handlers react alike.
* `C91_careful` (PQ): A program whose handlers of arithmetic errors never return is a careful one, up to the names: it behaves as with `throw_exception` (or `trap_exception`) in their places. So whatever is proved of careful programs holds with handlers written by the user as long as they do not return.
* `C91_comparisons` (PQ): Likewise comparisons.
* `C91_conversions` (PQ): Likewise construction, assignment and conversion of safe types.
* `C91_input` (PQ): Likewise input; then the value read and the state of the stream agree as well.
* `C91_operators` (PQ): Under the stricter policy an operator gives what it gives under the other one, or throws an error for which the handler of the other one returns.
* `C91_strictest` (none): The policy that throws for everything is stricter than every policy that compiles.
* `C91_transparent` (PCQ): A program that ends under strict policies without having caught an exception ends in the same way, in the same state, under every less strict choice of policies: the handlers (ignoring, logging, throwing for some codes only) were not called. The other possibility is that it ends with an exception for which the other handler would have returned.
* `C91_user_ignore` (P): It behaves like `ignore_exception` exactly if it returns for every arithmetic error.
* `C91_user_throw` (P): A handler of the user for arithmetic errors behaves like `throw_exception` exactly if it returns for no arithmetic error.

## C92 The order of evaluation of operands cannot be observed

C++ leaves open in which order the operands of an operator are evaluated, also interleaved. If the evaluation of an expression gives a value in one order, it gives the same value in every order. If in one order a program ends without an exception, thrown or caught on the way, it ends in the same state in every order that comes to an end. If no order leads to undefined behaviour, which is so for every covered program that compiles, then all orders that come to an end leave the same variables, output and input and end alike, except for the code of an exception that nobody catches; the order of the model, from left to right, ends whenever some order does. For such programs all orders end, with a bound on the number of steps, as soon as one does. Covered programs have no undefined behaviour and stay within their ranges in every order.

* `C92_cond` (PQ): Conditions likewise.
* `C92_condition_needed` (PQ): The condition of C92_order is needed: in `(x + 1) + (y + z / z)`, where `z` is a built-in zero and `x` the largest value, the exception comes first from left to right, the undefined division from right to left.
* `C92_covered` (PCQ): Covered programs that compile (C67) meet no fault in any order, so that the order cannot be observed (C92_order): two executions in any orders end in the same state, both normally or both with an exception.
* `C92_ends` (PCQ): For a program that faults in no order, the executions in all orders take equally many nested steps; so all end if the one from left to right ends.
* `C92_ends_covered` (PCQ): The programs of C92 that are covered: whether the executions end does not depend on the order.
* `C92_expr` (PCQ): Expressions. From left to right is one of the orders. If one order gives a value then so does every order, the same one.
* `C92_model` (PCQ): The execution of the model, from left to right, is one of the orders; and if no order leads to undefined behaviour it ends whenever some order does.
* `C92_order` (PCQ): All programs. If no order leads to undefined behaviour, then all orders that come to an end agree on everything that can be observed, except for the code of an exception that is not caught: variables, output, input left, number of exceptions caught, and whether the program ends normally.
* `C92_quiet` (PCQ): All programs, without any condition: if in one order the program ends without an exception, thrown or caught on the way, then it ends in the same way and in the same state in every order that comes to an end; and so does the execution of the model.
* `C92_refines` (PCQ): and an execution in any order that ends without an exception computes what the program computes over the integers.
* `C92_safe` (PCQ): The covered programs of C59: in every order, no undefined behaviour, and all variables within their ranges.

## C93 Narrowing the ranges of operands does no harm

If the operand types of an operator are replaced by types with the same base type and a range that lies within the old one, then every pair of operands that had a value has the same value, what the compiler accepted with a trapping policy it still accepts, and the type of the result becomes no wider. With native promotion and a throwing policy the declared ranges have no influence at all on what + - * / return or throw.

* `C93_arith` (PCQ): `+`, `-`, `*` with a policy that throws or traps: if there is a value for the wider types, there is the same value for the narrower types.
* `C93_automatic_refuted` (PQ): Automatic promotion: `200 + -200` is 0 with operands in `[0, 200]` and `[-200, 0]`. If they are known to be 200 and -200 the sum is computed in an 8-bit type and throws.
* `C93_automatic_type` (PCQ): Automatic promotion: if `intmax_t` or `uintmax_t` represents operands and results, the base type that is chosen for the narrower operands has the same signedness and is no wider. (It may be too narrow for the operands, see `C93_automatic_refuted`.)
* `C93_compare_partial` (PCQ): Comparisons, a policy that throws or traps: if there is a result for the wider types, there is the same result for the narrower types. Missing: a comparison in an unsigned type with an operand that is always negative, see `C93_compare_refuted`.
* `C93_compare_refuted` (PQ): Comparison: `-3 < 7u` is true with `-3` in `[-10, 5]` and `7u` in `[6, 9]`. If the left operand is known to be in `[-10, -1]`, where the answer is just as obvious, the comparison throws.
* `C93_construct` (PCQ): Construction, assignment and conversion of a value: a narrower source type changes nothing about a value that was accepted.
* `C93_modulo_refuted` (PQ): Remainder: `INT_MIN % -1` is 0 for `safe<int>`; if the divisor is known to be in `[-5, -1]` it is undefined behaviour.
* `C93_native` (PCQ): Native promotion and a policy that throws: the declared ranges have no influence at all on the outcome of `+`, `-`, `*`, `/`, be it a value or an exception.
* `C93_operator_partial` (PCQ): One operator, a policy that throws or traps: if `t op u` has a value for the wider types, it has the same value for the narrower types, where those compile (see `C93_arith` and `C93_trap_partial`). Missing: the operators that are not covered (C58).
* `C93_trap_partial` (PCQ): One operator, a policy that traps: what the compiler accepts for the wider types it accepts for the narrower ones. Missing: the operators that are not covered (C58).
* `C93_type` (PCQ): The type of `a + b`, `a - b`, `a * b` becomes no wider, if the result type represents the wider operands and at least one result of the narrower ones.
* `C93_type_div` (PCQ): The same for `a / b` with a divisor that is never zero.
* `C93_type_refuted` (PQ): Result types: where every sum overflows, the type of the sum is not empty but has the whole range of `int`, and is wider than that for operands with smaller values.

## C94 The comparison operators are a strict total order on each safe type

On the values of one safe type every comparison compiles and answers, whatever the exception policy, and < and == form a strict total order, as std::sort and std::map require; the other four operators agree with them. For operands of different types the answers never contradict each other: if a < b and b < c are true then a < c is not false.

* `C94_agree` (PCQ): Sorting is possible: the comparisons `>`, `<=`, `>=`, `!=` of one type say what `<` and `==` say.
* `C94_cpp_refuted` (PQ): `cpp` with a `char` wider than `int`: two values of one type need not be comparable.
* `C94_ignore_refuted` (PQ): With a policy that ignores errors the comparison of `-1` and `5` in these types is undefined behaviour.
* `C94_mixed_partial` (PCQ): Values of three types, a policy that throws or traps: if `a < b` and `b < c` are true then `a < c` is true, throws, or does not compile; it is never false. Missing: an answer in all cases, see `C94_mixed_refuted`.
* `C94_mixed_refuted` (PQ): Three types: `-1 < 0` for `int` and `long`, `0 < 5` for `long` and `unsigned`, but `-1 < 5` for `int` and `unsigned` throws.
* `C94_one_partial` (PCQ): Values of two types, a policy that throws or traps: at most one of `a < b`, `a == b`, `b < a` is true, and if all three have an answer then exactly one is.
* `C94_same` (PCQ): Two values of one type: every comparison has the answer of the integers, at compile time and at run time, with every exception policy (also one that ignores errors), and with every promotion policy; the widths of `cpp` must not decrease from `char` to `long long`.
* `C94_strict_total` (PCQ): Hence `<` and `==` are a strict total order on the values of each safe type.

## C95 A subset of programs, described by syntax and declared types, for which the library keeps its promise

For programs with native promotion and policies that throw (or trap), whose operators all have a safe operand and are + - * /, unary + and -, comparisons, bitwise operators on operands declared without negative values, and shifts and remainders of declared variables with suitable ranges: no execution has undefined behaviour, all variables stay in range, a run without exception computes what the program computes over the integers, and an exception is thrown exactly if some value does not fit. The types of sums, differences, products and quotients are always well-formed.

* `C95_covered` (PCQ): The programs of the subset meet all conditions of the theorems on programs (C58 to C62, C66, C67, C71, C83, C84).
* `C95_exceptions` (PCQ): It throws an exception exactly if a value does not fit somewhere on the way.
* `C95_integers` (PCQ): If it ends without an exception, it computed what the same program computes over the integers.
* `C95_safe` (PCQ): A program of the subset, started within the ranges of its variables: no undefined behaviour, no failed assertion, and all variables stay in range, also after exceptions.
* `C95_trap` (PCQ): If all policies trap and it compiles, it never throws, and computes what the program over the integers computes.
* `C95_type` (PCQ): The types of sums, differences, products and quotients are well-formed: bounds in the base type, not in the wrong order.

## C96 With a trapping policy the compiler performs interval analysis, exactly

For programs of safe variables with one promotion policy (native, automatic or cpp) and a trapping exception policy, with + - * (and / for native promotion), unary minus and plus, casts, comparisons, assignments, compound assignments, increments, input, output, conditionals, loops and handlers: the program is accepted by the compiler if and only if interval arithmetic on the declared ranges shows that every operand is representable in the type of the operation that the policy prescribes (or is multiplied by zero), no operation overflows that type or divides by zero and every interval that is assigned or cast is within the range of the target, and nothing is read or used as a condition as an integer; the range of the type of an expression is this interval. An accepted program never throws and computes what it computes over the integers. Consequently ++x, x = x + k and x += k are accepted for no variable.

* `C96_counter` (PCQ): A consequence: nothing can be counted. With a policy that traps neither `++x` nor `x = x + k` nor `x += k`, for a literal `k` other than zero, compiles for any variable, whatever its range, because interval analysis does not look at conditions.
* `C96_expr` (PCQ): Expressions: the compiler accepts an expression if and only if interval arithmetic finds an interval for it; this interval is then the range of its type.
* `C96_native` (PCQ): Native promotion: only the least operands and the ends of the results matter, because the common type of C++ is never too narrow.
* `C96_operator` (PCQ): One operator on any operand types, any promotion policy, a policy that traps: the compiler accepts it if and only if interval arithmetic finds an interval, that is if the type in which it is computed represents the operands and the ends of the interval of the results (or one factor is zero); this interval is then the range of the type of the result.
* `C96_program` (PCQ): Programs: the compiler accepts the program if and only if interval analysis does.
* `C96_run` (PCQ): So interval analysis is enough to know that the program compiles and, whatever the values of its variables, runs without exceptions and computes what the program over the integers computes.
* `C96_span` (PCQ): `span` is right: both ends are results, and no result is outside

## C97 What compiles with a trapping policy does the same with every other exception policy

Let one choice of exception policies trap wherever it differs from another choice. Then every operator, comparison, conversion and input, and every execution of a program of any length, with the first choice either meets an operation that the compiler rejects or is identical, step by step, with the second choice: outcome, values, output and caught exceptions. So a program that interval analysis accepts (C96) computes what it computes over the integers with every exception policy, including one that ignores errors.

* `C97_comparisons` (PQ): Likewise comparisons.
* `C97_conversions` (PQ): Likewise construction, assignment and conversion of safe types.
* `C97_hulls` (PCQ): A program that interval analysis accepts computes what the program over the integers computes with every exception policy: the handlers are not called, whether they ignore, throw or were written by the user.
* `C97_input` (PQ): Likewise input, with the value read and the stream.
* `C97_operators` (PQ): An operator under the trapping policy is rejected or gives what it gives under the other one.
* `C97_policies` (none): One policy is in the place of the other exactly if for every kind of error it traps or both have handlers that react alike to every error of that kind.
* `C97_program` (PQ): An execution of a program, of any length and from any state, with policies that trap meets an operation that is rejected, or it is step by step the execution with the other policies: the same outcome, values, output, exceptions caught, or no end so far. No coverage is assumed.
* `C97_strictest` (none): The policy that traps for everything, in the place of any other.

## C98 The exact meaning of programs with exception handlers, and a sound and complete logic for proving them

Over the integers a statement that stores or writes one value does what it says if all its values fit their types, and otherwise changes nothing and throws; reading takes a number of the type from the stream, or throws and leaves a described value and stream state (the closest value of the type, zero, or the old value); sequence, condition, loop and handler have their usual meaning. A covered program that compiles has a finished execution with certain variables, input stream and output, ending normally or by an exception, exactly when it has such a run over the integers; exceptions may be caught any number of times on the way, and the run is unique. Hence a triple (precondition, program, postconditions for normal and exceptional end) can be derived in a small set of proof rules that mention integers only if and only if it is true of all executions, in whatever order operands are evaluated; the same for total correctness with variants for loops.

* `C98_complete_partial` (PCQ): The logic is complete: what is true of all executions of a covered program and compiles can be derived, for states within the ranges.
* `C98_exec_partial` (PCQ): Every finished execution of an accepted covered program is a run over the integers, with the same variables and output: it ends normally if the run does, and by an exception if the run does. Exceptions may be caught on the way, any number of times.
* `C98_logic_order_partial` (PCQ): A triple can be derived if and only if it is true of all executions in all orders.
* `C98_logic_partial` (PCQ): For programs that compile (C67) both together: a triple can be derived if and only if it is true of the executions; partial and total correctness.
* `C98_order_partial` (PCQ): The executions of a covered program that compiles, with operands evaluated in any order, are exactly the runs over the integers.
* `C98_runs_partial` (PCQ): Conversely every run over the integers from a state within the ranges is an execution: the program ends, in the same state and in the same way, unless it does not compile.
* `C98_sound_partial` (PCQ): The logic is sound: what it derives about an accepted covered program is true of all its executions.
* `C98_subset` (PCQ): The programs of the subset of C95, which is described by syntax and declared types.
* `C98_total_complete_partial` (PCQ): The rules for total correctness are complete.
* `C98_total_order_partial` (PCQ): The logic for total correctness: a triple can be derived if and only if, from every state with `P`, all executions in all orders end, as the triple says.
* `C98_total_sound_partial` (PCQ): The rules for total correctness are sound: the executions end, and as derived.
* `C98_unique` (PCQ): A program has at most one run from a state.

## C99 Loops that count with a safe variable end

If every loop of a program changes some variable of a safe type by a constant step on every path through its body (++x, --x, x += k, x -= k, all in one direction), and errors are thrown or trapped, then the program ends, whatever the conditions of its loops are, from every state and with every input, in every order of evaluation; a loop goes round at most once for each value of the type of its variable. With a built-in variable, with a policy that ignores errors, or with steps in both directions this is false. Any other program of this form, also with built-in variables, that does not end within the bound has carried out an operation that is not clean (C88).

* `C99_blame` (PCQ): Every other program whose loops count, with variables of safe or built-in types and any operators: if it does not end within the bound, then among the operations it has carried out there is one that is not clean (C88).
* `C99_bound` (PCQ): A program whose loops count with safe variables, with policies that throw or trap, ends from every state within the ranges, with any input, whatever the conditions of its loops are: no loop goes round more often than a variable has values.
* `C99_ends` (PCQ): Such a program always ends: in the order of evaluation of the model, and if it is accepted by the compiler in every order.
* `C99_policy_needed` (PQ): The errors must not be ignored: with `safe<unsigned>` under a policy that ignores them, `while(x <= x) { x += 2147483648u; }` does not end.
* `C99_safe_needed` (PCQ): The counter has to be of a safe type: `unsigned char x; while(x <= x) { ++x; }` never ends.
* `C99_steady_needed` (PQ): The steps have to be in one direction: `while(x <= x) { ++x; --x; }` with `safe<unsigned char>` under the strict policy does not end.

## C100 Wider types do no harm

If an execution of a program ends without an exception, thrown or caught, then the same program with variables of wider types (ranges that contain the old ones, stored in types at least as wide) ends with the same values, the same input consumed and the same output, in every order of evaluation of operands. Where the two differ, the narrower one reports it. This holds for native promotion and types that are promoted to signed types; it is false for unsigned types as wide as int, for automatic promotion, and if the range is wider but the stored type is narrower.

* `C100_accepted_partial` (PCQ): If the wider program compiles (all its operations are accepted for some operands), it ends in the same way.
* `C100_condition_partial` (PCQ): Conditions.
* `C100_expression_partial` (PCQ): Expressions, native promotion, policies that throw or trap: an expression that has a value has the same value when the variables have wider types, if it is accepted by the compiler.
* `C100_fits_partial` (PCQ): Everything a program computes fits its wider types too.
* `C100_order_partial` (PCQ): The same for any order of evaluation: if the narrower program ends without an exception with its operands evaluated in some order, then the wider one ends in every order, with the same values, input consumed and output.
* `C100_program_partial` (PCQ): Whole programs: an execution that ends without an exception, thrown or caught, is the execution of the same program with wider variables: the same values of the variables, input consumed and output written. The only other possibility is that the program with wider variables is not accepted by the compiler.
* `C100_refuted_automatic` (PQ): with automatic promotion products of unsigned numbers may be larger than those of signed numbers: `x * x * (x * x)` fits for a `safe<unsigned short>`, but not for a `safe<int>` with the same value;
* `C100_refuted_unsigned` (PQ): The full statement (any wider types, any policy) is false. A `safe<unsigned short>` is promoted to `int`, a `safe<unsigned>` is not: `x - y` is -1 with the first, an exception with the second;
* `C100_refuted_width` (PQ): and a wider range in a narrower type may overflow: a `long` from 0 to 100 and a `signed char` from 0 to 120, multiplied by 2000000000.
* `C100_reported_partial` (PCQ): The other way round: what the wider program computes without an error is right, or the narrower one reports it. An execution of the program with narrower variables that ends otherwise than the one with wider variables throws an exception or catches one.

## C101 Emulating the machine itself changes nothing

A program compiled with the promotion policy cpp<...> for the machine on which it runs has exactly the executions that it has with native promotion: the same outcome, variables, input, output and exceptions caught, in every order of evaluation of operands. More generally, replacing promotion policies by others that give the same result types on the types used changes no execution, and of an emulated machine only the width of int matters. The first sentence is proved for programs that use no unsigned type narrower than int and either no shifts or only signed types not wider than int; it is false for unsigned char and for shifts by wider counts.

* `C101_host_partial` (PQ): A program with native promotion that uses no unsigned type narrower than `int` and no shifts: under the emulation of the machine on which it runs, every execution is the same, in the order of the model and in any other.
* `C101_machines` (PCQ): Only the width of `int` of an emulated machine matters: a program that uses types which both machines have runs alike under the emulation of either, if their `int` has the same width; shifts and unsigned types included.
* `C101_order` (PQ): The same in every order of evaluation.
* `C101_refuted_listed` (PQ): and two machines with the same `int` differ on types that one of them does not have.
* `C101_refuted_shift` (PQ): it shifts in the type of the count;
* `C101_refuted_unsigned` (PQ): The restrictions are necessary. The emulation of the machine on which the program runs throws at `x - x - 1`, for an `unsigned char`, where native promotion gives -1;
* `C101_same` (PQ): Replace the promotion policies of a program by others that give the operators it applies the same types on the base types it uses: every execution is the same, in outcome, variables, input and output, exceptions caught, whatever the exception policies.
* `C101_small_partial` (PQ): The same for programs with shifts, if all types are signed and not wider than `int`.

## C102 Automatic promotion does no harm

A program that runs under native promotion without an exception, thrown or caught, runs in the same way under automatic promotion: the same values of the variables, input consumed and output written, in every order of evaluation of operands. Proved for sums, differences, products, negation, comparisons, casts, increments and all statements, on variables, constants and casts of signed types to which -1 and 1 belong; false for ranges on one side of zero and for unsigned types. For such operands automatic promotion computes every sum, difference and product that the widest signed type represents.

* `C102_accepted_partial` (PCQ): If the program compiles with automatic promotion, it ends in the same way.
* `C102_expression_partial` (PCQ): Expressions of sums, differences and products, policies that throw or trap: an expression that has a value under native promotion has the same value under automatic promotion, if it is accepted by the compiler.
* `C102_fits_partial` (PCQ): What a program does without an error under native promotion fits its types under automatic promotion.
* `C102_operation` (PCQ): An operation of the library: with operands of signed types that contain -1 and 1, automatic promotion computes every sum, difference and product that the widest type of the machine represents, and stores it in the result.
* `C102_order_partial` (PCQ): The same for any order of evaluation: if the program ends without an exception under native promotion with its operands evaluated in some order, then under automatic promotion it ends in every order, with the same values, input consumed and output.
* `C102_program_partial` (PCQ): Whole programs: an execution under native promotion that ends without an exception, thrown or caught, is the execution under automatic promotion: the same values of the variables, input consumed and output written. The only other possibility is that the compiler does not accept the program with automatic promotion.
* `C102_refuted_literal` (PQ): Nor may literals of the library be used, whose range is a single value: `x + 100`, for an `x` in [-200, 1], has the range [-100, 101], for which automatic promotion takes a `signed char`; -200 is not in it.
* `C102_refuted_range` (PQ): The restrictions on the types are necessary. Two variables of a range that does not contain zero cannot be subtracted under automatic promotion, whose result type has no room for the operands;
* `C102_refuted_unsigned` (PQ): and the sum of an `unsigned long` and a `signed char` is confined to `long`.

## C103 Declared types and promotion policies decide whether a program succeeds, not what it computes

Take one program with any two choices of types for its variables and any two choices of promotion policies (native, automatic, emulation of any machine), unrelated to each other. Where an expression or condition has a value under both, the values are equal. Two executions from the same values and input that end without an exception, thrown or caught, leave the same values, input and output, also if their operands are evaluated in different orders. So every difference between the two is reported by an exception or by the compiler. This is false if exceptions are caught or errors are ignored.

* `C103_condition_partial` (PCQ): Conditions.
* `C103_expression_partial` (PCQ): Expressions: with whatever types of the variables and promotion policies (`Γ` and `Γ'` need have nothing in common), the values are the same where there are any.
* `C103_order_partial` (PCQ): The same with the operands evaluated in any order, a different one in each execution.
* `C103_program_partial` (PCQ): Whole programs: two executions that end without an exception, thrown or caught, from the same values of the variables and the same input leave the same values, input and output, with whatever types of the variables and promotion policies.
* `C103_refuted_caught` (PCQ): With handlers the two executions may differ, as one of them may have caught an exception: `try { std::cout << x * x; } catch (...) { std::cout << x; }`.
* `C103_refuted_ignored` (PQ): With a policy that ignores errors the promotion policy decides what is computed.
* `C103_reported_partial` (PCQ): Hence every difference is reported: if one execution ends without an exception, then each execution of the same program with other types and policies that comes to an end leaves the same values, or has thrown or caught an exception, or the compiler rejects an operation.

