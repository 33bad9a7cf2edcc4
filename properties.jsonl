{"id": "C01", "title": "Checked cast is exact or reports", "statement": "checked::cast<R>(t) and the bounded cast used by safe types never have undefined behaviour; they return the value t unchanged exactly when t lies inside the target bounds [Min, Max], otherwise they return an error; the error is positive_overflow_error when t is above the bounds, and when t is below the bounds it is an error that denotes 'too small' (negative_overflow_error, or domain_error for a signed value going to an unsigned type).", "quantifier": "every target type R, every bound pair Min <= Max inside R, every source type T and every value t of T", "why_tests_cant": "64-bit operand pairs cannot be enumerated, and the claim is about every platform width", "anchors": ["include/boost/safe_numerics/checked_integer.hpp: heterogeneous_checked_operation::cast, cast_impl_detail", "include/boost/safe_numerics/checked_default.hpp: checked::cast", "include/boost/safe_numerics/safe_compare.hpp: less_than, greater_than"]}
{"id": "C02", "title": "Checked addition is exact or reports the right overflow", "statement": "checked::add<R>(t,u) has no undefined behaviour; it returns the mathematical sum exactly when the sum fits in R, positive_overflow_error exactly when the sum is above R's maximum and negative_overflow_error exactly when it is below R's minimum.", "quantifier": "every integer type R and every pair of values", "why_tests_cant": "64-bit operand pairs cannot be enumerated, and the claim is about every platform width", "anchors": ["include/boost/safe_numerics/checked_integer.hpp: checked_operation::add"]}
{"id": "C03", "title": "Checked subtraction is exact or reports the right overflow", "statement": "checked::subtract<R>(t,u) has no undefined behaviour; it returns the mathematical difference exactly when it fits in R, positive_overflow_error exactly when it is above the maximum and negative_overflow_error exactly when it is below the minimum.", "quantifier": "every integer type R and every pair of values", "why_tests_cant": "64-bit operand pairs cannot be enumerated, and the claim is about every platform width", "anchors": ["include/boost/safe_numerics/checked_integer.hpp: checked_operation::subtract"]}
{"id": "C04", "title": "Checked negation is exact or reports the right overflow", "statement": "checked::minus<R>(t) has no undefined behaviour; it returns -t exactly when -t fits in R, positive_overflow_error when -t is above the maximum and negative_overflow_error when it is below the minimum.", "quantifier": "every integer type R and every value", "why_tests_cant": "64-bit operand pairs cannot be enumerated, and the claim is about every platform width", "anchors": ["include/boost/safe_numerics/checked_integer.hpp: checked_operation::minus"]}
{"id": "C05", "title": "Checked multiplication is exact or reports the right overflow", "statement": "checked::multiply<R>(t,u), on both the widened fast path and the full-width path, has no undefined behaviour; it returns the mathematical product exactly when it fits in R, positive_overflow_error exactly when the product is above the maximum and negative_overflow_error exactly when it is below the minimum.", "quantifier": "every integer type R, including the widest one where no wider intermediate exists, and every pair of values", "why_tests_cant": "64-bit operand pairs cannot be enumerated, and the claim is about every platform width", "anchors": ["include/boost/safe_numerics/checked_integer.hpp: checked_operation::multiply"]}
{"id": "C06", "title": "Checked division is exact or reports", "statement": "checked::divide<R>(t,u) has no undefined behaviour; it returns domain_error exactly when u is zero, positive_overflow_error exactly for minimum/-1 of a signed type, and otherwise the quotient truncated towards zero.", "quantifier": "every integer type R and every pair of values", "why_tests_cant": "64-bit operand pairs cannot be enumerated, and the claim is about every platform width", "anchors": ["include/boost/safe_numerics/checked_integer.hpp: checked_operation::divide"]}
{"id": "C07", "title": "Checked modulus is exact or reports", "statement": "checked::modulus<R>(t,u) has no undefined behaviour; it returns domain_error exactly when u is zero and otherwise the remainder of truncated division (sign of the dividend), for every pair of operands.", "quantifier": "every integer type R and every pair of values", "why_tests_cant": "64-bit operand pairs cannot be enumerated, and the claim is about every platform width; the failing pair (minimum, minimum) is one in 2^128", "anchors": ["include/boost/safe_numerics/checked_integer.hpp: checked_operation::modulus"]}
{"id": "C08", "title": "Checked left shift is exact or reports", "statement": "checked::left_shift<R>(t,u) has no undefined behaviour; whenever it returns a value, the value is t*2^u exactly and 0 <= u; it reports an error for every negative shift count, every nonzero shift of a negative value and every shift whose product does not fit R; a positive value whose shifted product fits is never rejected.", "quantifier": "every integer type R and every pair of values", "why_tests_cant": "64-bit operand pairs cannot be enumerated, and the claim is about every platform width", "anchors": ["include/boost/safe_numerics/checked_integer.hpp: checked_operation::left_shift", "include/boost/safe_numerics/utility.hpp: significant_bits"]}
{"id": "C09", "title": "Checked right shift is exact or reports", "statement": "checked::right_shift<R>(t,u) has no undefined behaviour; whenever it returns a value, the value is floor(t / 2^u) with 0 <= u; it reports an error for a negative shift count, a negative shifted value, and a shift count too large for the type.", "quantifier": "every integer type R and every pair of values", "why_tests_cant": "64-bit operand pairs cannot be enumerated, and the claim is about every platform width; the failing count (exactly the number of digits of an unsigned type at least as wide as int) is compiler dependent undefined behaviour that a test may not observe", "anchors": ["include/boost/safe_numerics/checked_integer.hpp: checked_operation::right_shift"]}
{"id": "C10", "title": "Checked bitwise operations are exact", "statement": "checked::bitwise_or/and/xor/not never report an error and never have undefined behaviour; bit i of the result is the or/and/xor/negation of bits i of the operands for every bit position of R, signed types being read in two's complement.", "quantifier": "every integer type R, every pair of values, every bit position", "why_tests_cant": "64-bit operand pairs cannot be enumerated, and the claim is about every platform width", "anchors": ["include/boost/safe_numerics/checked_integer.hpp: checked_operation::bitwise_or, bitwise_xor, bitwise_and, bitwise_not"]}
{"id": "C11", "title": "Bit length computation is correct", "statement": "utility::ilog2 of a positive value is the unique k with 2^k <= t < 2^(k+1), and utility::significant_bits(t) is the least n >= 1 such that t < 2^n for t >= 0 and -2^n <= t for t < 0.", "quantifier": "every integer type (signed or unsigned, every power-of-two width up to the widest, for every width of int) and every value of it", "why_tests_cant": "the table driven halving recursion must be right for each of 2^64 values and any width", "anchors": ["include/boost/safe_numerics/utility.hpp: ilog2, ilog2_detail::ilog2, significant_bits"]}
{"id": "C12", "title": "Mixed signedness comparison is mathematical comparison", "statement": "safe_compare::less_than, greater_than, less_than_equal, greater_than_equal, equal and not_equal on any two integer types return exactly the mathematical comparison of the two values.", "quantifier": "every pair of integer types and every pair of values", "why_tests_cant": "64-bit operand pairs cannot be enumerated, and the claim is about every platform width", "anchors": ["include/boost/safe_numerics/safe_compare.hpp: less_than, greater_than, less_than_equal, greater_than_equal, equal, not_equal"]}
{"id": "C13", "title": "Storage type selection can hold the range and is minimal", "statement": "signed_stored_type<Min,Max> and unsigned_stored_type<Min,Max> name a type that exists and holds every value between Min and Max, and no strictly narrower type of the same signedness holds the range.", "quantifier": "every range with bounds representable in intmax_t, respectively uintmax_t", "why_tests_cant": "there are 2^127 ranges and every one is a different template instance", "anchors": ["include/boost/safe_numerics/utility.hpp: signed_stored_type, unsigned_stored_type", "include/boost/safe_numerics/safe_integer_range.hpp: safe_signed_range, safe_unsigned_range"]}
{"id": "C14", "title": "round_out returns an all-ones bound", "statement": "utility::round_out(t) for t >= 0 has no undefined behaviour and returns the least value of the form 2^n - 1 with n >= 1 that is at least t; for t < 0 it returns a value of the form -2^n at or below t.", "quantifier": "every integer type (signed or unsigned, every power-of-two width up to the widest, for every width of int) and every value of it", "why_tests_cant": "64-bit operand pairs cannot be enumerated, and the claim is about every platform width", "anchors": ["include/boost/safe_numerics/utility.hpp: round_out"]}
{"id": "C15", "title": "Extended integer arithmetic over-approximates the true value", "statement": "If two checked_result values soundly describe two mathematical integers (a value describes itself, the overflow markers describe anything beyond the type's range on that side, any other error describes anything) then checked_result operator +, -, unary minus and * return a checked_result that soundly describes the true sum, difference, negation and product.", "quantifier": "every integer type, every pair of checked_results and every pair of integers they describe", "why_tests_cant": "the abstraction relation quantifies over unbounded integers", "anchors": ["include/boost/safe_numerics/checked_result_operations.hpp: operator+, operator-, operator*"]}
{"id": "C16", "title": "checked_result comparisons are sound three-valued comparisons", "statement": "For checked_results describing two integers, operator <, >, <=, >=, == and != return true only if the relation holds for the described integers and false only if it fails, for every pair of integers described; two ordinary values always give a definite answer.", "quantifier": "every integer type, every pair of checked_results and every pair of integers they describe", "why_tests_cant": "the abstraction relation quantifies over unbounded integers", "anchors": ["include/boost/safe_numerics/checked_result_operations.hpp: operator<, operator>, operator<=, operator>=, operator==, operator!="]}
{"id": "C17", "title": "minmax returns the extremes of any list", "statement": "utility::minmax of a non-empty list of mutually comparable elements returns an element of the list that is at most every element and an element that is at least every element.", "quantifier": "every non-empty list of any length over any total order", "why_tests_cant": "the length of the list is unbounded", "anchors": ["include/boost/safe_numerics/utility.hpp: minmax"]}
{"id": "C18", "title": "Interval arithmetic contains every pointwise result", "statement": "For intervals over checked_result, if x lies in interval t and y lies in interval u (y nonzero and u excluding zero for division and modulus) then the true x+y, x-y, x*y, x/y, x%y lie in the interval t+u, t-u, t*u, t/u, t%u.", "quantifier": "every integer type, every pair of intervals, every pair of points in them", "why_tests_cant": "points range over all integers of a 64-bit type and intervals over all bound pairs", "anchors": ["include/boost/safe_numerics/interval.hpp: operator+, operator-, operator*, operator/, operator%"]}
{"id": "C19", "title": "Interval predicates mean what they say", "statement": "includes(point), includes(interval), excludes, operator<, >, ==, union, intersection and intersect on intervals of integers agree with the set of integers each interval denotes: includes is set membership / subset, excludes is disjointness, < (>) is true only if every element is less (greater) and false only if every element is greater (less), | contains both, & is set intersection and intersect is true exactly when the sets meet.", "quantifier": "every pair of nonempty intervals of integers and every point", "why_tests_cant": "unbounded bounds", "anchors": ["include/boost/safe_numerics/interval.hpp: includes, excludes, intersect, operator|, operator&, operator<, operator>, operator=="]}
{"id": "C20", "title": "Every error reaches the handler its policy names", "statement": "For each exception policy, dispatching an error code runs exactly the handler that the policy associates with the class of that error (arithmetic_error, implementation_defined_behavior, undefined_behavior, uninitialized_value), every non-success code belongs to exactly one class, and the std::error_condition equivalence published for users agrees with that classification.", "quantifier": "every policy (every choice of throw/ignore/trap per class) and every error code", "why_tests_cant": "agreement of two independently written switch statements for every code; policies are open-ended", "anchors": ["include/boost/safe_numerics/exception.hpp: safe_numerics_error_category, safe_numerics_actions_category::equivalent", "include/boost/safe_numerics/exception_policies.hpp: make_safe_numerics_action, exception_policy, dispatch", "include/boost/safe_numerics/safe_base_operations.hpp: dispatch_switch"]}
{"id": "C21", "title": "A constructed safe value is in range and equals its source", "statement": "Constructing or assigning a safe value with a throwing policy from any built-in integer or any safe value either throws, or leaves a value that is mathematically equal to the source and inside the type's [Min, Max]; it throws exactly when the source is outside [Min, Max]; when the range check is skipped at compile time it could not have failed.", "quantifier": "every safe type, every source type and range and every source value", "why_tests_cant": "64-bit operand pairs cannot be enumerated, and the claim is about every platform width, and the compile time skip depends on the type ranges", "anchors": ["include/boost/safe_numerics/safe_base_operations.hpp: validated_cast, validate_detail, safe_base::safe_base", "include/boost/safe_numerics/safe_base.hpp: operator="]}
{"id": "C22", "title": "Converting a safe value to a built-in integer is exact or throws", "statement": "static_cast of a safe value to any built-in integer type either throws or yields the mathematically equal value, and throws exactly when the target type cannot represent it.", "quantifier": "every safe type, target type and value", "why_tests_cant": "64-bit operand pairs cannot be enumerated, and the claim is about every platform width", "anchors": ["include/boost/safe_numerics/safe_base_operations.hpp: operator R, casting_helper"]}
{"id": "C23", "title": "Safe +, - and * are mathematically exact or throw", "statement": "With a throwing policy, a + b, a - b and a * b where at least one operand is safe either throw or return exactly the mathematical result; this holds for the native, automatic and C++ emulation promotion policies; under native promotion the operation throws exactly when an operand or the mathematical result is not representable in the type the built-in expression would have.", "quantifier": "all operand types (built-in or safe, any bounds), all values, all three promotion policies", "why_tests_cant": "64-bit operand pairs cannot be enumerated, and the claim is about every platform width, times all bound pairs", "anchors": ["include/boost/safe_numerics/safe_base_operations.hpp: addition_result, subtraction_result, multiplication_result, operator+, operator-, operator*"]}
{"id": "C24", "title": "Safe division is exact or throws", "statement": "With a throwing policy, a / b where at least one operand is safe either throws or returns the truncated mathematical quotient; division by zero always throws; no execution has undefined behaviour.", "quantifier": "all operand types and bounds, all values, all promotion policies", "why_tests_cant": "64-bit operand pairs cannot be enumerated, and the claim is about every platform width, times all bound pairs", "anchors": ["include/boost/safe_numerics/safe_base_operations.hpp: division_result, operator/", "include/boost/safe_numerics/automatic.hpp: division_result"]}
{"id": "C25", "title": "Safe modulus is exact or throws", "statement": "With a throwing policy, a % b where at least one operand is safe either throws or returns the mathematical remainder of truncated division; a zero divisor always throws; no execution has undefined behaviour.", "quantifier": "all operand types and bounds, all values, all promotion policies", "why_tests_cant": "64-bit operand pairs cannot be enumerated, and the claim is about every platform width, times all bound pairs", "anchors": ["include/boost/safe_numerics/safe_base_operations.hpp: modulus_result, operator%", "include/boost/safe_numerics/automatic.hpp: modulus_result"]}
{"id": "C26", "title": "Safe shifts are exact or throw", "statement": "With a policy that throws on arithmetic and implementation-defined errors, a << b and a >> b where at least one operand is safe either throw or return a*2^b, respectively floor(a/2^b); no execution has undefined behaviour.", "quantifier": "all operand types and bounds, all values", "why_tests_cant": "64-bit operand pairs cannot be enumerated, and the claim is about every platform width, times all bound pairs; a violation is undefined behaviour", "anchors": ["include/boost/safe_numerics/safe_base_operations.hpp: left_shift_result, right_shift_result"]}
{"id": "C27", "title": "Safe bitwise operations are exact on the declared range", "statement": "a | b, a & b and a ^ b where at least one operand is safe return the bitwise result of the two values in the result type, and the returned safe value lies within the bounds of the returned safe type.", "quantifier": "all operand types and bounds, all values", "why_tests_cant": "64-bit operand pairs cannot be enumerated, and the claim is about every platform width, times all bound pairs", "anchors": ["include/boost/safe_numerics/safe_base_operations.hpp: bitwise_or_result, bitwise_and_result, bitwise_xor_result"]}
{"id": "C28", "title": "Safe comparisons are mathematical comparisons", "statement": "With a throwing policy, a < b, >, <=, >=, ==, != where at least one operand is safe either throw or return exactly the mathematical comparison of the two values; under automatic promotion with ranges that fit one widest type they never throw; answers decided at compile time from the ranges are right.", "quantifier": "all operand types and bounds, all values", "why_tests_cant": "64-bit operand pairs cannot be enumerated, and the claim is about every platform width, times all bound pairs", "anchors": ["include/boost/safe_numerics/safe_base_operations.hpp: less_than_result, equal_result, operator<, operator=="]}
{"id": "C29", "title": "Result types advertise sound bounds", "statement": "The safe type returned by +, -, *, /, %, <<, >> has static bounds that contain every value the operation can return, so that later operations may rely on those bounds to skip checks.", "quantifier": "all operand types and bounds, all values, all promotion policies", "why_tests_cant": "bounds are template arguments: every pair is a different program", "anchors": ["include/boost/safe_numerics/safe_base_operations.hpp: addition_result, subtraction_result, multiplication_result, division_result, modulus_result, left_shift_result, right_shift_result"]}
{"id": "C30", "title": "Trap policy: code that compiles cannot fail", "statement": "If an addition, subtraction, multiplication, construction or comparison with a trapping exception policy compiles, then for every value of the operands it returns the mathematically exact result, never throwing and never with undefined behaviour.", "quantifier": "all operand types and bounds for which the program compiles, all values", "why_tests_cant": "absence of failure for all inputs", "anchors": ["include/boost/safe_numerics/safe_base_operations.hpp: exception_possible, dispatch", "include/boost/safe_numerics/exception_policies.hpp: loose_trap_policy, strict_trap_policy, trap_exception"]}
{"id": "C31", "title": "Automatic promotion chooses sufficient types", "statement": "With automatic promotion the result type of a + b, a - b and a * b can hold every possible result whenever the exact result range fits the widest integer type, and then the operation never throws.", "quantifier": "all operand ranges, all values", "why_tests_cant": "all range pairs", "anchors": ["include/boost/safe_numerics/automatic.hpp: addition_result, subtraction_result, multiplication_result"]}
{"id": "C32", "title": "C++ emulation policy follows the C++ promotion rules of the emulated machine", "statement": "cpp<...>::result_type of two integer types equals the type given by the C++ integral promotions and usual arithmetic conversions for a machine whose char/short/int/long/long long have the widths given as template arguments.", "quantifier": "every choice of widths and every pair of integer types", "why_tests_cant": "all target machines, most of which cannot run the test suite", "anchors": ["include/boost/safe_numerics/cpp.hpp: integral_promotion, usual_arithmetic_conversions, result_type"]}
{"id": "C33", "title": "Native promotion is a drop-in replacement", "statement": "With native promotion, if the expression a op b on built-in integers has defined behaviour and does not wrap (its value equals the mathematical value), then the same expression on safe values returns that same value in the same result type and does not throw, for op in +, -, *, /, and comparisons.", "quantifier": "all operand types and all values for which the built-in expression is mathematically right", "why_tests_cant": "64-bit operand pairs cannot be enumerated, and the claim is about every platform width", "anchors": ["include/boost/safe_numerics/native.hpp: native policy", "include/boost/safe_numerics/safe_base_operations.hpp: operator+, operator-, operator*, operator/, operator<, operator=="]}
{"id": "C34", "title": "Range invariant and strong exception guarantee over any history", "statement": "Starting from an initialised safe variable, after any finite sequence of assignments, compound assignments, increments and decrements, some of which may throw, the variable always holds a value inside its declared [Min, Max], and an operation that throws leaves the variable unchanged.", "quantifier": "every safe type, every history of any length, every operand", "why_tests_cant": "histories are unbounded", "anchors": ["include/boost/safe_numerics/safe_base.hpp: operator=, operator++, operator--, operator+=, operator-=, operator*=, operator/=, operator%="]}
{"id": "C35", "title": "Whole expressions are exact or throw", "statement": "Any expression tree built from safe variables, built-in constants, +, -, *, unary minus and unary plus, of any shape and depth, evaluated with a throwing policy, either throws or returns exactly the mathematical value of the expression.", "quantifier": "every expression tree, every assignment of types, bounds and values to its leaves", "why_tests_cant": "expression trees are unbounded and every sub-expression has a different type", "anchors": ["include/boost/safe_numerics/safe_base_operations.hpp: operator+, operator-, operator*", "include/boost/safe_numerics/safe_base.hpp: unary operators"]}
{"id": "C36", "title": "Increment and decrement are exact or throw", "statement": "++x, x++, --x, x-- on a safe variable with a throwing policy either throw and leave x unchanged, or change x by exactly one; they return the new value (prefix) or the old value (postfix); they throw exactly when the new value is outside [Min, Max] or not representable in the intermediate type.", "quantifier": "every safe type and every value in it", "why_tests_cant": "64-bit operand pairs cannot be enumerated, and the claim is about every platform width, times all bound pairs", "anchors": ["include/boost/safe_numerics/safe_base.hpp: operator++, operator--"]}
{"id": "C37", "title": "Stream input never leaves an out-of-range value", "statement": "Reading a safe value from a stream with a throwing policy either throws or leaves the variable in range and equal to the number read; when it throws the variable still satisfies its range invariant.", "quantifier": "every safe type, every stream content and previous value", "why_tests_cant": "stream contents are unbounded", "anchors": ["include/boost/safe_numerics/safe_base_operations.hpp: input, operator>>"]}
{"id": "C38", "title": "Unary minus and complement are exact or throw", "statement": "-x on a safe value either throws or returns the mathematical negation; ~x either throws or returns the bitwise complement in the result type, and the returned value lies within the bounds of the returned type.", "quantifier": "every safe type and value", "why_tests_cant": "64-bit operand pairs cannot be enumerated, and the claim is about every platform width", "anchors": ["include/boost/safe_numerics/safe_base.hpp: operator-, operator~"]}
{"id": "C39", "title": "Compound assignment equals operation followed by assignment", "statement": "x op= y for op in +, -, *, /, % with a throwing policy either throws and leaves x unchanged, or leaves x equal to the mathematical result of x op y, inside [Min, Max].", "quantifier": "all safe types, all operand types, all values", "why_tests_cant": "64-bit operand pairs cannot be enumerated, and the claim is about every platform width", "anchors": ["include/boost/safe_numerics/safe_base.hpp: operator+=, operator-=, operator*=, operator/=, operator%="]}
{"id": "C40", "title": "Literals behave as exact constants", "statement": "A safe literal with value N has range [N, N], its stored type represents N, it converts to N in every built-in type that can represent N and is rejected otherwise, and its unary minus is the literal with value -N whenever -N is representable.", "quantifier": "every literal value", "why_tests_cant": "every literal is a different type", "anchors": ["include/boost/safe_numerics/safe_integer_literal.hpp: safe_signed_literal, safe_unsigned_literal, operator-"]}
{"id": "C41", "title": "Safe + and * are commutative; comparisons are antisymmetric", "statement": "a + b and b + a (likewise *) have the same outcome, value or error, whichever operand is safe or built-in; a < b and b > a, a == b and b == a, a != b and !(a == b) always agree.", "quantifier": "all operand types and bounds, all values", "why_tests_cant": "64-bit operand pairs cannot be enumerated, and the claim is about every platform width", "anchors": ["include/boost/safe_numerics/safe_base_operations.hpp: operator+, operator*, operator<, operator>, operator==, operator!="]}
{"id": "C42", "title": "Error codes, texts and enumerators agree", "statement": "Every safe_numerics_error enumerator has a distinct non-empty text, error_code message returns it, distinct errors are distinct codes and only success is falsy.", "quantifier": "every enumerator", "why_tests_cant": "agreement of independent tables", "anchors": ["include/boost/safe_numerics/exception.hpp: safe_numerics_error, literal_string, safe_numerics_error_category::message"]}
{"id": "C43", "title": "safe_compare orders all integer types consistently", "statement": "Across any mixture of integer types, exactly one of less_than(a,b), equal(a,b), greater_than(a,b) holds, less_than and equal are transitive, and equality is preserved by checked::cast that succeeds.", "quantifier": "every triple of integer types and values", "why_tests_cant": "64-bit operand pairs cannot be enumerated, and the claim is about every platform width", "anchors": ["include/boost/safe_numerics/safe_compare.hpp: less_than, equal"]}
{"id": "C44", "title": "Cast round trips are lossless", "statement": "If checked::cast<R>(t) succeeds then casting the result back to the original type succeeds and returns t; widening to a type whose range includes the source type never fails.", "quantifier": "every pair of types and every value", "why_tests_cant": "64-bit operand pairs cannot be enumerated, and the claim is about every platform width", "anchors": ["include/boost/safe_numerics/checked_default.hpp: checked::cast", "include/boost/safe_numerics/checked_integer.hpp: heterogeneous_checked_operation::cast"]}
{"id": "C45", "title": "Extended integer division is sound away from infinite numerators", "statement": "If the numerator is an ordinary value and the denominator soundly describes a nonzero integer, checked_result operator/ returns a checked_result that soundly describes the truncated quotient.", "quantifier": "every integer type, every numerator, every denominator and every integer it describes", "why_tests_cant": "the abstraction relation quantifies over unbounded integers", "anchors": ["include/boost/safe_numerics/checked_result_operations.hpp: operator/"]}
{"id": "C46", "title": "Extended integer shifts are sound", "statement": "For ordinary values t and u, checked_result operator<< and >> never have undefined behaviour or assertion failures, terminate, and return either t*2^u (respectively t shifted right, rounding towards zero) or an overflow marker on the side of the true value (never a wrong value).", "quantifier": "every integer type and every pair of values", "why_tests_cant": "64-bit operand pairs cannot be enumerated, and the claim is about every platform width; the two operators are mutually recursive", "anchors": ["include/boost/safe_numerics/checked_result_operations.hpp: operator<<, operator>>"]}
{"id": "C47", "title": "No undefined behaviour in any safe +, -, *, comparison or construction", "statement": "No construction, assignment, comparison, addition, subtraction or multiplication of safe values executes undefined behaviour or fails an internal assertion, for any throwing exception policy and any promotion policy.", "quantifier": "all operand types, bounds and values", "why_tests_cant": "64-bit operand pairs cannot be enumerated, and the claim is about every platform width; undefined behaviour is invisible to tests", "anchors": ["include/boost/safe_numerics/safe_base_operations.hpp: all operators"]}
{"id": "C48", "title": "numeric_limits of a safe type are its attained bounds", "statement": "std::numeric_limits<safe type>::min()/max() return the declared bounds, the declared bounds are themselves storable, and every value storable through the public interface lies between them.", "quantifier": "every safe type", "why_tests_cant": "every bound pair is a different type", "anchors": ["include/boost/safe_numerics/safe_base.hpp: numeric_limits<safe_base>"]}
{"id": "C49", "title": "Result types of shifts advertise sound bounds", "statement": "When a << b or a >> b on safe operands returns a value, that value lies within the static bounds of the safe type the operator returns.", "quantifier": "all operand types and bounds, all values, all promotion policies", "why_tests_cant": "64-bit operand pairs cannot be enumerated, and the claim is about every platform width; every operand range pair is a different instantiation", "anchors": ["include/boost/safe_numerics/safe_base_operations.hpp: left_shift_operation, right_shift_operation", "include/boost/safe_numerics/interval.hpp: operator<<, operator>>"]}
{"id": "C50", "title": "Range types have exactly the declared bounds", "statement": "safe_signed_range<Min, Max> and safe_unsigned_range<Min, Max> are valid types whose values are exactly the integers from Min to Max, stored in the smallest type that can hold them.", "quantifier": "every pair Min <= Max of intmax_t or uintmax_t", "why_tests_cant": "every bound pair is a different type", "anchors": ["include/boost/safe_numerics/safe_integer_range.hpp: safe_signed_range, safe_unsigned_range", "include/boost/safe_numerics/utility.hpp: signed_stored_type, unsigned_stored_type"]}
{"id": "C51", "title": "Stream output is the decimal numeral and reads back", "statement": "Writing a safe value to a stream prints the decimal numeral of its value for every stored type, character types included; reading it back into any safe type that has the value restores it and leaves the following characters in the stream.", "quantifier": "every safe type, every value, every following text", "why_tests_cant": "unbounded inputs; every type is a different instantiation", "anchors": ["include/boost/safe_numerics/safe_base_operations.hpp: safe_base::output, safe_base::input"]}
{"id": "C52", "title": "Compound bitwise and shift assignments are exact or throw", "statement": "x <<= y, x >>= y, x |= y, x &= y and x ^= y on a safe variable either throw and leave x unchanged, or leave x equal to the result of the operation, inside [Min, Max].", "quantifier": "all safe types, all operand types, all values", "why_tests_cant": "64-bit operand pairs cannot be enumerated, and the claim is about every platform width", "anchors": ["include/boost/safe_numerics/safe_base_operations.hpp: operator<<=, operator>>=, operator|=, operator&=, operator^="]}
{"id": "C53", "title": "Ignoring policies give built-in arithmetic", "statement": "With an exception policy that ignores arithmetic errors, a op b on safe operands yields what the built-in expression yields, wrap-around and undefined behaviour included.", "quantifier": "all arithmetic and shift operators and comparisons, all operand types and bounds, all values, all promotion policies", "why_tests_cant": "64-bit operand pairs cannot be enumerated, and the claim is about every platform width", "anchors": ["include/boost/safe_numerics/safe_base_operations.hpp: add/subtract/multiply/divide/modulus/shift operations, comparisons, casting_helper", "include/boost/safe_numerics/checked_result_operations.hpp: checked_result members"]}
{"id": "C54", "title": "Ignoring policies give built-in conversions", "statement": "With an exception policy that ignores arithmetic errors, constructing or assigning a safe value keeps representable values and otherwise behaves like the built-in conversion.", "quantifier": "all safe types, all source types, all values", "why_tests_cant": "64-bit operand pairs cannot be enumerated, and the claim is about every platform width", "anchors": ["include/boost/safe_numerics/safe_base_operations.hpp: validated_cast", "include/boost/safe_numerics/exception_policies.hpp: dispatch"]}
{"id": "C55", "title": "Default construction is never silently uninitialised", "statement": "safe<T> x; either throws, does not compile, or leaves x with a determinate value.", "quantifier": "every exception policy", "why_tests_cant": "undefined reads are invisible to tests", "anchors": ["include/boost/safe_numerics/safe_base.hpp: safe_base()", "include/boost/safe_numerics/exception.hpp: uninitialized_value"]}
{"id": "C56", "title": "Trap policy: division, remainder and shifts that compile cannot fail", "statement": "With a trapping exception policy, a / b, a % b, a << b and a >> b are rejected at compile time, or have the exact mathematical value (and a defined one) for every value of the operand types.", "quantifier": "all operand types and bounds, all values, all promotion policies", "why_tests_cant": "64-bit operand pairs cannot be enumerated, and the claim is about every platform width", "anchors": ["include/boost/safe_numerics/safe_base_operations.hpp: divide_operation, modulus_operation, left_shift_operation, right_shift_operation"]}
{"id": "C57", "title": "Policies of expressions", "statement": "The type of an expression of any depth carries exactly the promotion and exception policies that occur in its operands; expressions that mix two different policies of one sort do not compile.", "quantifier": "all expression trees, all policy classes", "why_tests_cant": "the number of expression trees is infinite", "anchors": ["include/boost/safe_numerics/safe_base_operations.hpp: common_promotion_policy, common_exception_policy"]}
{"id": "C58", "title": "Expressions with all operators are exact or throw", "statement": "Every expression of arithmetic, bitwise and shift operators, unary operators, casts and literals over safe and built-in operands has its integer value, which lies within the bounds of its type, or throws, or does not compile; likewise every condition.", "quantifier": "all expression trees, all operand types and policies, all values", "why_tests_cant": "the number of expression trees is infinite", "anchors": ["include/boost/safe_numerics/safe_base_operations.hpp: all operators", "include/boost/safe_numerics/safe_base.hpp: unary operators, conversions", "include/boost/safe_numerics/safe_integer_literal.hpp: operators"]}
{"id": "C59", "title": "Whole programs keep their invariants", "statement": "No execution of a program of assignments, compound assignments, increments, stream input and output, conditionals, loops and exception handlers over safe variables has undefined behaviour, and all variables are within their ranges after it, exceptions or not.", "quantifier": "all programs, all inputs, executions of any length", "why_tests_cant": "programs and executions are unbounded", "anchors": ["include/boost/safe_numerics/safe_base_operations.hpp: all operators, input, output", "include/boost/safe_numerics/safe_base.hpp: assignment"]}
{"id": "C60", "title": "Programs without exceptions compute what they compute over the integers", "statement": "A program that ends without having thrown an exception has the same final variables, output and remaining input as the same program over the unbounded integers.", "quantifier": "all programs, all inputs, executions of any length", "why_tests_cant": "programs and executions are unbounded", "anchors": ["include/boost/safe_numerics/safe_base_operations.hpp: all operators, input, output"]}
{"id": "C61", "title": "Errors are reported once, with a definite code, to any handler", "statement": "Each primitive checked operation returns the exact value, or calls the given error handler exactly once with the code that the kind of failure determines and returns what the handler returns.", "quantifier": "all types, all values, all handlers", "why_tests_cant": "64-bit operand pairs cannot be enumerated, and the claim is about every platform width", "anchors": ["include/boost/safe_numerics/checked_integer.hpp: checked_operation", "include/boost/safe_numerics/checked_default.hpp: default implementations"]}
{"id": "C62", "title": "Trapping programs that compile cannot fail", "statement": "A program whose exception policies all trap and that compiles runs exactly like the same program over the unbounded integers: it ends exactly if that one does, no exception is ever thrown, no variable leaves its range, and variables, output and remaining input agree.", "quantifier": "all programs, all start states, executions of any length", "why_tests_cant": "programs and executions are unbounded; a test of a program that does not compile cannot be run", "anchors": ["include/boost/safe_numerics/safe_base_operations.hpp: all operators, input, output", "include/boost/safe_numerics/exception_policies.hpp: trap_exception, strict_trap_policy, loose_trap_policy"]}
{"id": "C63", "title": "Extended integer remainder is sound", "statement": "checked_result operator% never has undefined behaviour or an assertion failure; a zero divisor or an operand of unknown value gives range_error; otherwise the result soundly describes the truncated remainder of the described integers.", "quantifier": "every integer type, all operands (values and errors), all integers they describe", "why_tests_cant": "the abstraction relation quantifies over unbounded integers, and the tests only use a table of a few operands", "anchors": ["include/boost/safe_numerics/checked_result_operations.hpp: operator%"]}
{"id": "C64", "title": "Extended integer bitwise operators", "statement": "checked_result |, & and ^ give the value with the right bits for two ordinary values, and range_error if either operand is an error; they never read the value of an erroneous operand.", "quantifier": "every integer type, all operands", "why_tests_cant": "operand pairs of wide types cannot be enumerated", "anchors": ["include/boost/safe_numerics/checked_result_operations.hpp: operator|, operator&, operator^"]}
{"id": "C65", "title": "Extended division of overflow markers", "statement": "When checked_result operator/ reports an overflow, the true quotient has the sign of that overflow or is zero; a marker divided by a nonzero value is the marker of the product of signs; division by zero gives the marker with the sign of the dividend, and range_error for 0/0.", "quantifier": "every integer type, all operands and all integers they describe", "why_tests_cant": "the abstraction relation quantifies over unbounded integers", "anchors": ["include/boost/safe_numerics/checked_result_operations.hpp: operator/"]}
{"id": "C66", "title": "No false alarms", "statement": "A program whose values over the integers all fit (operands and results the type the promotion policy chooses, stored and read values their variables) throws no exception and ends in exactly the state the integer program ends in, unless the compiler rejects it.", "quantifier": "all programs over safe types, all start states and inputs, executions of any length", "why_tests_cant": "absence of spurious exceptions cannot be shown by runs that happen to succeed", "anchors": ["include/boost/safe_numerics/safe_base_operations.hpp: all operators, input, output, validated_cast"]}
{"id": "C67", "title": "What is rejected depends on types only", "statement": "An operator, comparison or conversion is rejected by the compiler for all operand values of its types or for none; a program all of whose operations are accepted never meets a rejected one at run time, and if its values fit it does exactly what the integer program does. Example: Euclid's algorithm on safe<unsigned> ends without exception with the greatest common divisor for all inputs.", "quantifier": "all operand types, values, policies, programs", "why_tests_cant": "code that does not compile cannot be run, and values are unbounded in number", "anchors": ["include/boost/safe_numerics/safe_base_operations.hpp: static_assert, exception_possible, constexpr intervals"]}
{"id": "C68", "title": "The predefined policies do what their comments say", "statement": "loose_exception_policy throws on arithmetic errors and ignores others; loose_trap_policy traps arithmetic errors and ignores others; strict_exception_policy throws on every kind of error; strict_trap_policy traps every error; default_exception_policy is strict_exception_policy.", "quantifier": "every error code", "why_tests_cant": "tests use single codes, and traps cannot be run", "anchors": ["include/boost/safe_numerics/exception_policies.hpp: loose_exception_policy, loose_trap_policy, strict_exception_policy, strict_trap_policy, default_exception_policy"]}
{"id": "C69", "title": "A safe integer as a condition", "statement": "Converted to bool, as in if(x), !x or while(x), a safe value or literal is false exactly if it is zero, as for built-in integers.", "quantifier": "every safe type and literal, all values, all policies", "why_tests_cant": "operand values of wide types cannot be enumerated; with trap policies the failure is at compile time", "anchors": ["include/boost/safe_numerics/safe_base.hpp: operator R", "include/boost/safe_numerics/safe_base_operations.hpp: safe_base::operator R, validate_detail", "include/boost/safe_numerics/safe_integer_literal.hpp: operator R"]}
{"id": "C70", "title": "The stepper motor program of the tutorial", "statement": "Sent from any position to any position of its range, the motor of example93.cpp arrives in as many interrupts as the distance, without an exception, undefined behaviour or a failed assertion, with the windings advancing one phase per step and all delays in range; except that a move by one step never stops and ends with a range exception.", "quantifier": "all start and target positions (2.5 * 10^9 pairs), all contents of the other variables and registers, all numbers of interrupts", "why_tests_cant": "a run takes up to 50000 interrupts and there are 2.5 * 10^9 pairs of positions; the example runs five moves", "anchors": ["example/example93.cpp: test, to_microseconds, types", "example/motor3.c: isr_motor_step, motor_run, update, busy"]}
{"id": "C71", "title": "Exceptions are thrown exactly when something does not fit", "statement": "An accepted operator, expression, condition or whole program throws an exception if and only if, over the integers, some operation is undefined or has an operand or result that the type chosen by the promotion policy cannot represent, or a stored or read value is outside the range of its variable. Exempt are products that are zero by type and order comparisons of types whose ranges are apart.", "quantifier": "all operand types, values, policies that throw or trap, programs, start states and inputs, executions of any length", "why_tests_cant": "an equivalence over all programs and all values cannot be enumerated", "anchors": ["include/boost/safe_numerics/safe_base_operations.hpp: all operators, input, output, validated_cast"]}
{"id": "C72", "title": "The example programs of the library do what they should for all values", "statement": "With its constants replaced by arbitrary values of their types, each small example program of the library ends with the exact result exactly when its variables and results can hold the exact values, throws otherwise, and is rejected where the example says so.", "quantifier": "all values of the constants of example1 to example8, 10, 11, 13, 14, 16 to 20, 81, 82, 84", "why_tests_cant": "each example runs with one pair of values only", "anchors": ["example/example1.cpp to example/example20.cpp", "example/example81.cpp, example82.cpp, example84.cpp"]}
{"id": "C73", "title": "The trap policy rejects exactly what could throw", "statement": "With an exception policy that traps, the compiler accepts an operation, a construction or a comparison if and only if it fits its result type for all values of the operand types; this is if and only if the same operation with a policy that throws returns a value for all operand values.", "quantifier": "all operators, promotion policies, trapping and throwing exception policies, operand types and ranges", "why_tests_cant": "A test can only check that single programs are accepted or rejected (one compilation each); that rejection coincides with the existence of a failing value is a statement about all types and all values", "anchors": ["include/boost/safe_numerics/safe_base_operations.hpp:376-494", "include/boost/safe_numerics/safe_base_operations.hpp:748-892", "include/boost/safe_numerics/safe_base_operations.hpp:1070-1258", "include/boost/safe_numerics/safe_base_operations.hpp:60-156"]}
{"id": "C74", "title": "Safe types are a drop-in replacement", "statement": "If a program whose variables are of safe types (native promotion, policies that throw or trap) ends without an exception, thrown or caught, then the same program with every safe type replaced by its built-in type ends in the same state, with the same input read and output written, and without undefined behaviour. Equivalently, whenever the built-in program has undefined behaviour or another result, the safe program reports it.", "quantifier": "all programs of the language of C59 (loops, input, output, handlers), all states, inputs, run lengths, integer types", "why_tests_cant": "tests compare single expressions with single values; the claim is about every program and every run", "anchors": ["doc/html/safe.html:146", "doc/html/promotion_policies/native.html:30", "include/boost/safe_numerics/safe_base_operations.hpp: all operators", "include/boost/safe_numerics/native.hpp", "include/boost/safe_numerics/safe_base.hpp:131-166"]}
{"id": "C75", "title": "Exactly where the low level operations deviate", "statement": "For each low level operation that is not right for all operands, a closed condition on the operands says exactly when it is right: checked modulus, right_shift, the bounded cast and round_out on built-in integers; and + - unary minus * / % << >> on extended integers, where right means that the outcome describes the mathematical result for all integers the two operands stand for. No other operands are affected.", "quantifier": "all integer types, all operands (values, overflow markers, other errors), all integers described by them", "why_tests_cant": "tests can confirm single failures; that a list of failing operands is complete, and contains no operand wrongly, needs all operands", "anchors": ["include/boost/safe_numerics/checked_result_operations.hpp", "include/boost/safe_numerics/checked_default.hpp", "include/boost/safe_numerics/checked_integer.hpp", "include/boost/safe_numerics/utility.hpp"]}
{"id": "C76", "title": "Exactly where the operators of safe types deviate", "statement": "With a throwing policy, / % << and >> on safe types, under every promotion policy, return the exact result, throw, or do not compile, except for exactly the operands that a closed condition on types and values describes: for << a negative value or count where the ranges of the operand types promise a result within bounds; for >> in an unsigned type a count equal to its width, or a negative count that is overlooked because the left range starts at zero; for % under native promotion the minimum by itself, or by -1 when the divisor cannot be zero; under other policies also operands that the result type does not have, where the ends of the ranges of the operand types hide this from the compiler, so that they are converted without a check.", "quantifier": "all operand types (safe, range, built-in, literal), all values", "why_tests_cant": "operand types are unboundedly many and operand pairs of wide types cannot be enumerated", "anchors": ["include/boost/safe_numerics/safe_base_operations.hpp: division_result, modulus_result, left_shift_result, right_shift_result", "include/boost/safe_numerics/native.hpp: native"]}
{"id": "C77", "title": "Result types are as narrow as the operands allow", "statement": "The type of the result of +, -, * (and of / by a range without zero, and of shifts of non-negative values by non-negative counts) is bounded by the least and the greatest mathematical result, or the limit of the base type where that does not represent it; |, & and ^ of ranges from zero are bounded by the least 2^n-1 that no result exceeds. Under native promotion the base type is the type of the built-in expression; under automatic promotion it is the smallest type of its signedness that holds every result. Consequently, under a policy that traps, op= compiles exactly if every possible result is a value of the variable.", "quantifier": "all promotion policies, operand types, ranges", "why_tests_cant": "operand types are unboundedly many; a type that is too wide gives no wrong value, only needless checks or rejected programs, which tests of values do not show", "anchors": ["include/boost/safe_numerics/safe_base_operations.hpp: type of each operator", "include/boost/safe_numerics/automatic.hpp: automatic", "include/boost/safe_numerics/native.hpp: native"]}
{"id": "C78", "title": "Exactly which bitwise operators compile and stay within the bounds of their type", "statement": "The operators |, & and ^ on safe types compile exactly if the result type is unsigned or the bit patterns of the upper ends of both operand types (of one of them for &) are values of the result type. All results are within the bounds of the type of the result exactly if the largest bit patterns of both operand types (of one of them for &) are. Complement compiles exactly if the promoted type is unsigned or the type has non-negative values, and its result is within bounds exactly if the promoted type is unsigned or the operand is negative.", "quantifier": "all promotion policies, operand types (safe, range, built-in, literal), all values", "why_tests_cant": "operand types are unboundedly many, a failing operand pair may be any of 2^128", "anchors": ["include/boost/safe_numerics/safe_base_operations.hpp: bitwise_or_operation, bitwise_and_operation, bitwise_xor_operation, operator~"]}
{"id": "C79", "title": "The trusted model of the built-in operators is two's complement word arithmetic", "statement": "The operators on mathematical integers by which the model describes built-in C++ integers agree with the operations on machine words (Lean's BitVec): + - * / % unary minus << >> and the comparisons give the value of the word operation and are undefined exactly when the word operation overflows (signed), the divisor is zero, the count is out of range, or a signed left shift loses bits. Conversions keep the low bits; promotion gives int exactly if int has all values; the usual arithmetic conversions give the promoted type that has all values of the other, else the unsigned type of the larger width.", "quantifier": "all integer types on all machines of the model, all operand values", "why_tests_cant": "2^128 pairs of operands per pair of types; it ties the trusted part of the model to an independent definition", "anchors": ["[expr.arith.conv], [conv.integral], [conv.prom] of the C++ standard; used by all of include/boost/safe_numerics"]}
{"id": "C80", "title": "The first safe version of the stepper motor program", "statement": "Sent from any position to any other, test() of example92.cpp with motor2.c ends, and not in undefined behaviour. The motor arrives at its target exactly if the target is a position of the type and the distance is 1 to 220, 222, 437 or 439 to 6275 steps; otherwise the program ends with an exception. At distances 221, 223 to 436 and 438 the exception comes only after the motor has run 6501 or 6502 steps, past its target. Sent to where it is, a motor at rest stays there.", "quantifier": "all start and target positions, all contents of the other variables and registers that are values of their types, with the two timer registers zero as on the desktop", "why_tests_cant": "2^48 pairs of start and target with runs of thousands of interrupts each; the tutorial runs four moves", "anchors": ["example/example92.cpp:51-200", "example/motor2.c:25-157"]}
{"id": "C81", "title": "Shifts of extended integers with overflow markers and unknown operands", "statement": "For checked_result operands of one type that may be values, overflow markers (the value is known to lie beyond the range) or other errors (nothing is known), the outcome of << and >> soundly describes x*2^y, rounded towards zero, for all integers x and y that the operands describe; no operands lead to undefined behaviour or a failing assertion; an unknown operand gives range_error, except for zero shifted.", "quantifier": "all integer types of all machines, all operands, all integers described by them", "why_tests_cant": "each marker stands for infinitely many integers; the tables of 36 entries are written by hand and only values are tested", "anchors": ["include/boost/safe_numerics/checked_result_operations.hpp:783-1063"]}
{"id": "C82", "title": "Commutative operators do not depend on the order of their operands", "statement": "a + b and b + a, a * b and b * a, a & b and b & a (also |, ^), a == b and b == a (also !=) have the same type and the same outcome: the same value, both throw, both do not compile or both are undefined; a < b is b > a and a <= b is b >= a.", "quantifier": "all operand types and ranges, all values, all promotion and exception policies", "why_tests_cant": "the result type is computed from both operand types by asymmetric code (rank comparison, conversion of the first operand first); tests compare a few types", "anchors": ["include/boost/safe_numerics/safe_base_operations.hpp:377-494", "include/boost/safe_numerics/safe_base_operations.hpp:622-742", "include/boost/safe_numerics/safe_base_operations.hpp:1182-1267", "include/boost/safe_numerics/safe_base_operations.hpp:1581-1760", "include/boost/safe_numerics/cpp.hpp:47-137", "include/boost/safe_numerics/automatic.hpp:55-110", "test/check_symmetry.hpp:1-10"]}
{"id": "C83", "title": "Portability: versions of a program never end with different results", "statement": "Take two versions of a program that differ in the types of the variables, constants and casts, in the promotion and exception policies, in the handlers and in the machine they run on. If both end without an exception they end with the same values of all variables, the same output and the same rest of the input. If one ends without an exception, every other version without handlers ends, with the same result or with an exception; a version with policies that trap and that compiles ends with the same result.", "quantifier": "all programs of the language of the model, all pairs of versions, machines, inputs and executions of any length", "why_tests_cant": "a test runs one version on one machine; the claim relates all pairs of versions on all inputs", "anchors": ["include/boost/safe_numerics/safe_base_operations.hpp:1-1852", "include/boost/safe_numerics/cpp.hpp:1-197", "include/boost/safe_numerics/automatic.hpp:1-479", "include/boost/safe_numerics/native.hpp:1-110"]}
{"id": "C84", "title": "Refactoring: laws of integer arithmetic may be used on programs", "statement": "Two expressions that are equal over the integers (by associativity, distributivity or any other law), whatever their types, policies and machines, have the same value wherever both are evaluated without an exception. Two programs that do the same over the integers end with the same variables, output and rest of the input if both end without an exception; if one does, the other, without handlers, ends with the same result or an exception.", "quantifier": "all expressions and programs of the language of the model, all pairs with equal integer meaning, all inputs and executions", "why_tests_cant": "a law relates infinitely many pairs of programs; built-in integers do not obey it (undefined overflow, unsigned wrap-around)", "anchors": ["include/boost/safe_numerics/safe_base_operations.hpp:1-1852", "include/boost/safe_numerics/safe_base.hpp:1-318"]}
{"id": "C85", "title": "The texts printed of results, intervals and types tell everything", "statement": "The text of a checked_result is its flag followed by its value or its error text and message, and two results with the same text are the same value or the same error with the same message. Likewise the texts of an interval, of a value with the range of its type (range_value, and result_display, which prints in hexadecimal) and of safe_format determine the ends, the range, the name of the base type and the value. A reader of numbers gets the value of a result back from its text.", "quantifier": "all integer types, values, errors, messages, intervals, ranges, type names without '>'", "why_tests_cant": "that no two different contents share a text is about all pairs of contents; tests print a few", "anchors": ["include/boost/safe_numerics/checked_result_operations.hpp:1125-1152", "include/boost/safe_numerics/interval.hpp:273-300", "include/boost/safe_numerics/range_value.hpp:30-69", "example/safe_format.hpp:26-53", "example/example20.cpp"]}
{"id": "C86", "title": "Floating point values as sources", "statement": "checked::cast of a floating point value to an integer type gives the number if it is an integer of the type, and otherwise reports an error. A safe integer is made from a floating point value only if it is an integer in its range. The comparisons of checked_operation for types without a specialisation answer the question asked.", "quantifier": "all floating point values (finite, infinite, NaN) of all formats, all integer types, all ordered types", "why_tests_cant": "there are 2^64 values of double alone, and a wrong cast is undefined behaviour, which a test need not notice", "anchors": ["include/boost/safe_numerics/checked_integer.hpp:157-179", "include/boost/safe_numerics/checked_default.hpp:92-103", "include/boost/safe_numerics/safe_base_operations.hpp: validate_detail, safe_base constructors"]}
{"id": "C87", "title": "The inherited members of numeric_limits are true of safe types", "statement": "numeric_limits of a safe type: every non-negative number of `digits` binary digits is a value; `is_signed` holds exactly if the type has negative values; `is_modulo` holds exactly if results beyond the limits wrap around.", "quantifier": "all stored types and ranges, all promotion policies, all policies that throw", "why_tests_cant": "the members make promises about all values of a type", "anchors": ["include/boost/safe_numerics/safe_base.hpp:289-310"]}
{"id": "C88", "title": "Whatever goes wrong, one operation on known bad operands is to blame", "statement": "Take any program over safe and built-in integers, covered or not, and any execution. If it has undefined behaviour or fails an assertion, leaves a variable out of its range, ends normally with another result than over the integers, or (with exceptions caught on the way) ends otherwise than the program can end over the integers when its statements are free to throw, or does not end although it does over the integers (with handlers: wherever its statements throw), then among the operations it carried out there is one whose types and operand values are on an explicit list. With a throwing policy, and every promotion policy, the list is exact for the operators of safe types: an operation goes wrong if and only if its operands are on it. With a policy that traps this holds for the operations that compile.", "quantifier": "all programs, all types and policies that throw or trap, all start states and inputs, executions of any length", "why_tests_cant": "programs and executions are unbounded; a test shows that an execution went wrong, not that a list of causes is complete", "anchors": ["include/boost/safe_numerics/safe_base_operations.hpp: all operators, input, output", "include/boost/safe_numerics/safe_base.hpp: conversions"]}
{"id": "C89", "title": "Exceptions are thrown exactly by the operations whose values do not fit", "statement": "In any execution of any program every exception is thrown by one of the operations carried out, each is caught or is the outcome, and an exception or fault that is the outcome is that of the last operation. If the operations are clean (C88) and the program compiles, an operation throws if and only if its values do not fit (operands and result the type it is computed in, a converted value its target, a number read the range of the variable): the number of exceptions, caught or not, is the number of operations that do not fit; there is none iff all fit; an exception that ends the program comes from the last operation and, if none was caught before, from the first one that does not fit.", "quantifier": "all programs, types and start states; executions of any length, with any number of handlers; policies that throw or trap for the second part", "why_tests_cant": "programs, executions and the number of exceptions are unbounded; a test cannot show that no exception is spurious or missing", "anchors": ["include/boost/safe_numerics/safe_base_operations.hpp: all operators, comparisons, input", "include/boost/safe_numerics/safe_base.hpp: conversions", "include/boost/safe_numerics/exception.hpp: default actions"]}
{"id": "C90", "title": "Every outcome of reading a safe value from a stream", "statement": "With a policy that throws, reading falls into disjoint cases that cover all streams, and each has one outcome. Types other than character types: nothing to read, or a minus sign first and an unsigned type: exception, the variable keeps its value; a number in range is stored; a number of the base type that is out of range is stored and then an exception is thrown; any other number: the closest value of the base type is stored and an exception is thrown; other text: zero is stored and an exception is thrown. Character types: nothing to read is undefined behaviour; a number in range is stored; any other number throws and the variable keeps its value; other text is taken for zero, without an exception if zero is in range. It is also said what is left in the stream, and that it has failed.", "quantifier": "all types (any range and base type), all old values, all contents and states of the stream", "why_tests_cant": "texts and ranges are unbounded; tests read a few numbers and cannot show what every text leaves in the variable", "anchors": ["include/boost/safe_numerics/safe_base_operations.hpp:1810-1847 input"]}
{"id": "C91", "title": "Exception policies matter only where an error is raised", "statement": "Call a policy stricter than another if it reacts to every error in the same way, except that it may throw where the other returns. Under the stricter policy every operator, comparison, conversion, construction and input has the same outcome as under the other, or throws an error for which the handler of the other returns; a whole program that ends without having caught an exception ends the same way, in the same state, under the other policies, or ends with such an exception. Policies whose handlers react alike cannot be told apart by any program. A handler written by the user is like throw_exception exactly if it returns for no error of its class.", "quantifier": "all policies, built from the predefined handlers and from handlers of the user that throw for some codes and return for others; all operations, types and values; all programs and executions", "why_tests_cant": "the user may write any handler; tests can only try some policies on some operations", "anchors": ["include/boost/safe_numerics/exception_policies.hpp:17-48 exception_policy", "include/boost/safe_numerics/safe_base_operations.hpp:48-95 dispatch, dispatch_and_return"]}
{"id": "C92", "title": "The order of evaluation of operands cannot be observed", "statement": "C++ leaves open in which order the operands of an operator are evaluated, also interleaved. If the evaluation of an expression gives a value in one order, it gives the same value in every order. If in one order a program ends without an exception, thrown or caught on the way, it ends in the same state in every order that comes to an end. If no order leads to undefined behaviour, which is so for every covered program that compiles, then all orders that come to an end leave the same variables, output and input and end alike, except for the code of an exception that nobody catches; the order of the model, from left to right, ends whenever some order does. For such programs all orders end, with a bound on the number of steps, as soon as one does. Covered programs have no undefined behaviour and stay within their ranges in every order.", "quantifier": "all expressions, conditions and programs, all states, all orders of evaluation (a nondeterministic semantics)", "why_tests_cant": "a compiler uses one order; tests compiled with it say nothing about the others", "anchors": ["include/boost/safe_numerics/safe_base_operations.hpp:376-393 operator result policies", "include/boost/safe_numerics/safe_base.hpp:221-226 operator="]}
{"id": "C93", "title": "Narrowing the ranges of operands does no harm", "statement": "If the operand types of an operator are replaced by types with the same base type and a range that lies within the old one, then every pair of operands that had a value has the same value, what the compiler accepted with a trapping policy it still accepts, and the type of the result becomes no wider. With native promotion and a throwing policy the declared ranges have no influence at all on what + - * / return or throw.", "quantifier": "all promotion policies, all pairs of nested operand types, all values, all operators", "why_tests_cant": "programmers narrow a type in the belief that more knowledge can only help; the tests never compare two declarations of the same computation", "anchors": ["include/boost/safe_numerics/safe_base_operations.hpp:376-393 operator result policies", "include/boost/safe_numerics/safe_base_operations.hpp:1070-1133 operator<", "include/boost/safe_numerics/automatic.hpp:43-50 result_type"]}
{"id": "C94", "title": "The comparison operators are a strict total order on each safe type", "statement": "On the values of one safe type every comparison compiles and answers, whatever the exception policy, and < and == form a strict total order, as std::sort and std::map require; the other four operators agree with them. For operands of different types the answers never contradict each other: if a < b and b < c are true then a < c is not false.", "quantifier": "all promotion policies, all exception policies, all types and values", "why_tests_cant": "an ordering law quantifies over all triples of values; the tests compare single pairs from a table", "anchors": ["include/boost/safe_numerics/safe_base_operations.hpp:1070-1133 operator<", "include/boost/safe_numerics/safe_base_operations.hpp:1153-1178 operator>, >=, <=", "include/boost/safe_numerics/safe_base_operations.hpp:1182-1266 equal_result, operator==, !="]}
{"id": "C95", "title": "A subset of programs, described by syntax and declared types, for which the library keeps its promise", "statement": "For programs with native promotion and policies that throw (or trap), whose operators all have a safe operand and are + - * /, unary + and -, comparisons, bitwise operators on operands declared without negative values, and shifts and remainders of declared variables with suitable ranges: no execution has undefined behaviour, all variables stay in range, a run without exception computes what the program computes over the integers, and an exception is thrown exactly if some value does not fit. The types of sums, differences, products and quotients are always well-formed.", "quantifier": "all programs of the subset, all declared types, all architectures, all inputs", "why_tests_cant": "a guideline for users of the library must hold for every program written by it; no set of test programs shows that", "anchors": ["include/boost/safe_numerics/safe_base_operations.hpp:376-393 operator result policies", "include/boost/safe_numerics/safe_base_operations.hpp:748-902 division", "include/boost/safe_numerics/safe_base_operations.hpp:907-1063 modulus", "include/boost/safe_numerics/safe_base_operations.hpp:1277-1400 left_shift_result, operator<<", "include/boost/safe_numerics/native.hpp: native"]}
{"id": "C96", "title": "With a trapping policy the compiler performs interval analysis, exactly", "statement": "For programs of safe variables with one promotion policy (native, automatic or cpp) and a trapping exception policy, with + - * (and / for native promotion), unary minus and plus, casts, comparisons, assignments, compound assignments, increments, input, output, conditionals, loops and handlers: the program is accepted by the compiler if and only if interval arithmetic on the declared ranges shows that every operand is representable in the type of the operation that the policy prescribes (or is multiplied by zero), no operation overflows that type or divides by zero and every interval that is assigned or cast is within the range of the target, and nothing is read or used as a condition as an integer; the range of the type of an expression is this interval. An accepted program never throws and computes what it computes over the integers. Consequently ++x, x = x + k and x += k are accepted for no variable.", "quantifier": "all programs of this form, all promotion policies, all declared ranges and integer types, all architectures, all initial states", "why_tests_cant": "whether a program compiles is not observable by a running test, and a compile-fail test shows one program only", "anchors": ["include/boost/safe_numerics/safe_base_operations.hpp:376-460", "include/boost/safe_numerics/safe_base_operations.hpp:152-214", "include/boost/safe_numerics/safe_base.hpp:221-262", "include/boost/safe_numerics/exception_policies.hpp:60-130", "include/boost/safe_numerics/interval.hpp:90-230"]}
{"id": "C97", "title": "What compiles with a trapping policy does the same with every other exception policy", "statement": "Let one choice of exception policies trap wherever it differs from another choice. Then every operator, comparison, conversion and input, and every execution of a program of any length, with the first choice either meets an operation that the compiler rejects or is identical, step by step, with the second choice: outcome, values, output and caught exceptions. So a program that interval analysis accepts (C96) computes what it computes over the integers with every exception policy, including one that ignores errors.", "quantifier": "all programs (no coverage assumed), all states, all numbers of steps, all pairs of policies of which one traps where they differ, all architectures", "why_tests_cant": "tests cannot compare a program under all policies, and the handlers that are never called leave no trace", "anchors": ["include/boost/safe_numerics/exception_policies.hpp:25-171", "include/boost/safe_numerics/safe_base_operations.hpp:48-148", "include/boost/safe_numerics/safe_base_operations.hpp:376-460"]}
{"id": "C98", "title": "The exact meaning of programs with exception handlers, and a sound and complete logic for proving them", "statement": "Over the integers a statement that stores or writes one value does what it says if all its values fit their types, and otherwise changes nothing and throws; reading takes a number of the type from the stream, or throws and leaves a described value and stream state (the closest value of the type, zero, or the old value); sequence, condition, loop and handler have their usual meaning. A covered program that compiles has a finished execution with certain variables, input stream and output, ending normally or by an exception, exactly when it has such a run over the integers; exceptions may be caught any number of times on the way, and the run is unique. Hence a triple (precondition, program, postconditions for normal and exceptional end) can be derived in a small set of proof rules that mention integers only if and only if it is true of all executions, in whatever order operands are evaluated; the same for total correctness with variants for loops.", "quantifier": "all covered programs, all states within the ranges, all numbers of steps, all pre- and postconditions, all architectures, policies that throw or trap", "why_tests_cant": "tests run programs on single inputs; the equivalence of executions and runs, and completeness of proof rules, are statements about all programs and all predicates", "anchors": ["include/boost/safe_numerics/safe_base_operations.hpp:376-460", "include/boost/safe_numerics/safe_base_operations.hpp:1070-1267", "include/boost/safe_numerics/safe_base.hpp:221-276", "include/boost/safe_numerics/exception_policies.hpp:25-171"]}
{"id": "C99", "title": "Loops that count with a safe variable end", "statement": "If every loop of a program changes some variable of a safe type by a constant step on every path through its body (++x, --x, x += k, x -= k, all in one direction), and errors are thrown or trapped, then the program ends, whatever the conditions of its loops are, from every state and with every input, in every order of evaluation; a loop goes round at most once for each value of the type of its variable. With a built-in variable, with a policy that ignores errors, or with steps in both directions this is false. Any other program of this form, also with built-in variables, that does not end within the bound has carried out an operation that is not clean (C88).", "quantifier": "all covered programs of this form, all states within the ranges, all inputs, policies that throw or trap, all architectures", "why_tests_cant": "a test that does not end is no test; the bound depends on the type (up to 2^64 rounds) and is claimed for every program", "anchors": ["include/boost/safe_numerics/safe_base.hpp:228-244 operator++, --", "include/boost/safe_numerics/safe_base_operations.hpp:377-494 addition, +=", "include/boost/safe_numerics/safe_base_operations.hpp:500-617 subtraction, -="]}
{"id": "C100", "title": "Wider types do no harm", "statement": "If an execution of a program ends without an exception, thrown or caught, then the same program with variables of wider types (ranges that contain the old ones, stored in types at least as wide) ends with the same values, the same input consumed and the same output, in every order of evaluation of operands. Where the two differ, the narrower one reports it. This holds for native promotion and types that are promoted to signed types; it is false for unsigned types as wide as int, for automatic promotion, and if the range is wider but the stored type is narrower.", "quantifier": "all covered programs of both typings, all pairs of typings, all executions, policies that throw or trap, all architectures", "why_tests_cant": "pairs of typings and programs are unbounded; a test can only compare a few programs for a few types", "anchors": ["include/boost/safe_numerics/native.hpp:22-104 native promotion", "include/boost/safe_numerics/safe_base_operations.hpp:377-494 addition", "include/boost/safe_numerics/safe_base_operations.hpp:500-617 subtraction", "include/boost/safe_numerics/safe_base_operations.hpp:623-738 multiplication"]}
{"id": "C101", "title": "Emulating the machine itself changes nothing", "statement": "A program compiled with the promotion policy cpp<...> for the machine on which it runs has exactly the executions that it has with native promotion: the same outcome, variables, input, output and exceptions caught, in every order of evaluation of operands. More generally, replacing promotion policies by others that give the same result types on the types used changes no execution, and of an emulated machine only the width of int matters. The first sentence is proved for programs that use no unsigned type narrower than int and either no shifts or only signed types not wider than int; it is false for unsigned char and for shifts by wider counts.", "quantifier": "all programs, all states and executions, all exception policies, all architectures, all emulated machines with ordered widths", "why_tests_cant": "programs and executions are unbounded; a test can compare only a few programs under two policies", "anchors": ["include/boost/safe_numerics/cpp.hpp:47-190 rank, integral_promotion, usual_arithmetic_conversions, result_type", "include/boost/safe_numerics/native.hpp:22-104 native promotion", "include/boost/safe_numerics/safe_base_operations.hpp:248-325 common policies"]}
{"id": "C102", "title": "Automatic promotion does no harm", "statement": "A program that runs under native promotion without an exception, thrown or caught, runs in the same way under automatic promotion: the same values of the variables, input consumed and output written, in every order of evaluation of operands. Proved for sums, differences, products, negation, comparisons, casts, increments and all statements, on variables, constants and casts of signed types to which -1 and 1 belong; false for ranges on one side of zero and for unsigned types. For such operands automatic promotion computes every sum, difference and product that the widest signed type represents.", "quantifier": "all covered programs of this form, all such types, all states and executions, policies that throw or trap, all architectures", "why_tests_cant": "programs and executions are unbounded; a test can compare only a few programs under two policies", "anchors": ["include/boost/safe_numerics/automatic.hpp:55-170 addition_result, subtraction_result, multiplication_result", "include/boost/safe_numerics/native.hpp:22-104 native promotion", "include/boost/safe_numerics/safe_base_operations.hpp:376-738 addition, subtraction, multiplication"]}
{"id": "C103", "title": "Declared types and promotion policies decide whether a program succeeds, not what it computes", "statement": "Take one program with any two choices of types for its variables and any two choices of promotion policies (native, automatic, emulation of any machine), unrelated to each other. Where an expression or condition has a value under both, the values are equal. Two executions from the same values and input that end without an exception, thrown or caught, leave the same values, input and output, also if their operands are evaluated in different orders. So every difference between the two is reported by an exception or by the compiler. This is false if exceptions are caught or errors are ignored.", "quantifier": "all covered programs, all pairs of typings and promotion policies, all states and executions of any length, policies that throw or trap, all architectures", "why_tests_cant": "pairs of typings, policies and programs are unbounded; a test compares a few of them", "anchors": ["include/boost/safe_numerics/automatic.hpp:55-170 addition_result, subtraction_result, multiplication_result", "include/boost/safe_numerics/native.hpp:22-104 native promotion", "include/boost/safe_numerics/cpp.hpp:47-190 rank, integral_promotion, usual_arithmetic_conversions, result_type", "include/boost/safe_numerics/safe_base_operations.hpp:376-738 addition, subtraction, multiplication"]}
