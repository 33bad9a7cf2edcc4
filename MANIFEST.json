{
 "claims": [
  {
   "property": "C01",
   "status": "partial",
   "theorems": [
    "Verif.Props.C01_checkedCast",
    "Verif.Props.C01_cast_partial",
    "Verif.Props.C01_cast_refuted"
   ],
   "note": "checked::cast complete; the bounded cast reports positive_overflow_error for unsigned sources below the bounds (refuted clause)"
  },
  {
   "property": "C02",
   "status": "proved",
   "theorems": [
    "Verif.Props.C02_add"
   ],
   "note": ""
  },
  {
   "property": "C03",
   "status": "proved",
   "theorems": [
    "Verif.Props.C03_subtract"
   ],
   "note": ""
  },
  {
   "property": "C04",
   "status": "proved",
   "theorems": [
    "Verif.Props.C04_minus"
   ],
   "note": ""
  },
  {
   "property": "C05",
   "status": "proved",
   "theorems": [
    "Verif.Props.C05_multiply"
   ],
   "note": ""
  },
  {
   "property": "C06",
   "status": "proved",
   "theorems": [
    "Verif.Props.C06_divide",
    "Verif.Props.C06_divide_in"
   ],
   "note": ""
  },
  {
   "property": "C07",
   "status": "partial",
   "theorems": [
    "Verif.Props.C07_modulus_partial",
    "Verif.Props.C07_modulus_defined",
    "Verif.Props.C07_modulus_refuted"
   ],
   "note": "false for the single pair (min,min) of a signed type, proved for all others"
  },
  {
   "property": "C08",
   "status": "proved",
   "theorems": [
    "Verif.Props.C08_leftShift"
   ],
   "note": ""
  },
  {
   "property": "C09",
   "status": "partial",
   "theorems": [
    "Verif.Props.C09_rightShift_partial",
    "Verif.Props.C09_narrow_full_shift",
    "Verif.Props.C09_rightShift_refuted"
   ],
   "note": "undefined behaviour for unsigned types at least as wide as int shifted by exactly their width; proved otherwise"
  },
  {
   "property": "C10",
   "status": "proved",
   "theorems": [
    "Verif.Props.C10_bitwise",
    "Verif.Props.C10_bits_determine",
    "Verif.Props.C10_not_value"
   ],
   "note": ""
  },
  {
   "property": "C11",
   "status": "proved",
   "theorems": [
    "Verif.Props.C11_ilog2",
    "Verif.Props.C11_unique",
    "Verif.Props.C11_significantBits"
   ],
   "note": ""
  },
  {
   "property": "C12",
   "status": "proved",
   "theorems": [
    "Verif.Props.C12_safeCompare"
   ],
   "note": ""
  },
  {
   "property": "C13",
   "status": "proved",
   "theorems": [
    "Verif.Props.C13_signed",
    "Verif.Props.C13_unsigned"
   ],
   "note": ""
  },
  {
   "property": "C14",
   "status": "partial",
   "theorems": [
    "Verif.Props.C14_roundOut_nonneg_partial",
    "Verif.Props.C14_roundOut_neg_partial",
    "Verif.Props.C14_roundOut_refuted"
   ],
   "note": "proved for unsigned types, types narrower than int and values in the lower half; overflow for the rest"
  },
  {
   "property": "C15",
   "status": "partial",
   "theorems": [
    "Verif.Props.C15_value_exact",
    "Verif.Props.C15_add_partial",
    "Verif.Props.C15_add_refuted",
    "Verif.Props.C15_sub_partial",
    "Verif.Props.C15_sub_refuted",
    "Verif.Props.C15_neg_partial",
    "Verif.Props.C15_neg_refuted",
    "Verif.Props.C15_mul_partial",
    "Verif.Props.C15_mul_refuted"
   ],
   "note": "the code misreports some operations on overflow markers (refutations with witnesses); the partial theorems name the operand combinations for which the report is right"
  },
  {
   "property": "C16",
   "status": "proved",
   "theorems": [
    "Verif.Props.C16_comparisons",
    "Verif.Props.C16_decisive"
   ],
   "note": ""
  },
  {
   "property": "C17",
   "status": "proved",
   "theorems": [
    "Verif.Props.C17_minmax",
    "Verif.Props.C17_empty"
   ],
   "note": ""
  },
  {
   "property": "C18",
   "status": "partial",
   "theorems": [
    "Verif.Props.C18_add_partial",
    "Verif.Props.C18_sub_partial",
    "Verif.Props.C18_mul_partial",
    "Verif.Props.C18_div_partial",
    "Verif.Props.C18_values_partial",
    "Verif.Props.C18_mod_refuted",
    "Verif.Props.C18_add_refuted",
    "Verif.Props.C18_sub_refuted",
    "Verif.Props.C18_mul_refuted",
    "Verif.Props.C18_div_refuted",
    "Verif.Props.C18_precondition",
    "Verif.Props.C18_mod_partial"
   ],
   "note": "false for % and for ends that are markers of the wrong side or (products, quotients) upper ends that are other errors; proved for + - * / otherwise, including all intervals of ordinary values; C18_precondition: interval division and remainder assert that the divisor interval excludes zero"
  },
  {
   "property": "C19",
   "status": "partial",
   "theorems": [
    "Verif.Props.C19_membership",
    "Verif.Props.C19_order",
    "Verif.Props.C19_union_intersection",
    "Verif.Props.C19_intersect_partial",
    "Verif.Props.C19_intersect_constant",
    "Verif.Props.C19_intersect_refuted",
    "Verif.Props.C19_extended",
    "Verif.Props.C19_extended_order"
   ],
   "note": "intersect is true for every pair of nonempty intervals (refuted); all other predicates proved exactly"
  },
  {
   "property": "C20",
   "status": "partial",
   "theorems": [
    "Verif.Props.C20_dispatch",
    "Verif.Props.C20_dispatchAndReturn",
    "Verif.Props.C20_success",
    "Verif.Props.C20_one_class",
    "Verif.Props.C20_equivalent_partial",
    "Verif.Props.C20_equivalent_success",
    "Verif.Props.C20_equivalent_refuted"
   ],
   "note": "equivalence fails for precision_overflow_error only"
  },
  {
   "property": "C21",
   "status": "proved",
   "theorems": [
    "Verif.Props.C21_construct",
    "Verif.Props.C21_rejected",
    "Verif.Props.C21_any_policy"
   ],
   "note": ""
  },
  {
   "property": "C22",
   "status": "proved",
   "theorems": [
    "Verif.Props.C22_toBuiltin"
   ],
   "note": ""
  },
  {
   "property": "C23",
   "status": "proved",
   "theorems": [
    "Verif.Props.C23_exact",
    "Verif.Props.C23_policy",
    "Verif.Props.C23_native"
   ],
   "note": ""
  },
  {
   "property": "C24",
   "status": "partial",
   "theorems": [
    "Verif.Props.C24_native_exact",
    "Verif.Props.C24_native",
    "Verif.Props.C24_policy_partial",
    "Verif.Props.C24_automatic_partial",
    "Verif.Props.C24_automatic_refuted",
    "Verif.Props.C24_cpp_refuted"
   ],
   "note": "native promotion fully proved; other policies when the result type is wide enough; the unchecked conversion in automatic promotion and in emulation policies is refuted with witnesses"
  },
  {
   "property": "C25",
   "status": "partial",
   "theorems": [
    "Verif.Props.C25_exact",
    "Verif.Props.C25_native_exact",
    "Verif.Props.C25_native_partial",
    "Verif.Props.C25_policy_partial",
    "Verif.Props.C25_min_refuted",
    "Verif.Props.C25_ub_refuted",
    "Verif.Props.C25_automatic_refuted",
    "Verif.Props.C25_automatic_quotient_refuted"
   ],
   "note": "native promotion and wide policies: C25_exact and C25_native_exact give the outcome of `%` for all operands; it is the remainder except for dividend min with divisor min (wrong value) and with divisor -1 when zero is not in the divisor range (undefined behaviour), both refuted with witnesses; automatic promotion refuted"
  },
  {
   "property": "C26",
   "status": "partial",
   "theorems": [
    "Verif.Props.C26_shl_partial",
    "Verif.Props.C26_shl_returns",
    "Verif.Props.C26_shr_partial",
    "Verif.Props.C26_shr_returns",
    "Verif.Props.C26_shl_native",
    "Verif.Props.C26_shl_loose_partial",
    "Verif.Props.C26_shr_loose_partial",
    "Verif.Props.C26_shl_count_refuted",
    "Verif.Props.C26_shl_negative_refuted",
    "Verif.Props.C26_shl_zero_refuted",
    "Verif.Props.C26_shr_width_refuted",
    "Verif.Props.C26_shr_count_refuted",
    "Verif.Props.C26_loose_refuted"
   ],
   "note": "proved for << when the left range has a positive value and either no negative values occur or the result interval overflows (covers safe<B> with B at least int, native promotion), and for >> except unsigned by its full width and unsigned ranges starting at 0 with possibly negative counts; the excluded cases are undefined behaviour in the code (refuted with witnesses), also the loose policy; under policies that do not throw for shift errors (loose_exception_policy) the same holds for operands free of these errors (C26_shl_loose_partial, C26_shr_loose_partial)"
  },
  {
   "property": "C27",
   "status": "partial",
   "theorems": [
    "Verif.Props.C27_mask_partial",
    "Verif.Props.C27_bits",
    "Verif.Props.C27_all_bits",
    "Verif.Props.C27_bounds_partial",
    "Verif.Props.C27_bounds_refuted",
    "Verif.Props.C27_and_refuted"
   ],
   "note": "every bit of the result proved for all policies; bounds proved for operand ranges that are non-negative and fit the result type; for signed operands the result type claims a non-negative range that the value leaves (refuted with witnesses); & is proved for signed operands too if the other operand is a mask: a range without negative values within the bound of the type of the result (C27_mask_partial). C78 says exactly which ranges stay within bounds"
  },
  {
   "property": "C28",
   "status": "proved",
   "theorems": [
    "Verif.Props.C28_iff",
    "Verif.Props.C28_exact",
    "Verif.Props.C28_automatic",
    "Verif.Props.C28_native"
   ],
   "note": ""
  },
  {
   "property": "C29",
   "status": "partial",
   "theorems": [
    "Verif.Props.C29_mod_type",
    "Verif.Props.C29_mod_iff",
    "Verif.Props.C29_mod_constant",
    "Verif.Props.C29_arith",
    "Verif.Props.C29_div_native",
    "Verif.Props.C29_div_policy_partial",
    "Verif.Props.C29_mod_refuted",
    "Verif.Props.C29_mod_refuted",
    "Verif.Props.C29_ignore_refuted"
   ],
   "note": "+ - * proved for all policies, / for native and wide policies; % and the ignoring policy refuted with witnesses; for positive divisors the type of % is given in closed form and C29_mod_iff says exactly when it is right (safe<unsigned> % c: exactly for powers of two, C29_mod_constant)"
  },
  {
   "property": "C30",
   "status": "proved",
   "theorems": [
    "Verif.Props.C30_arith",
    "Verif.Props.C30_compare",
    "Verif.Props.C30_construct"
   ],
   "note": ""
  },
  {
   "property": "C31",
   "status": "partial",
   "theorems": [
    "Verif.Props.C31_holds",
    "Verif.Props.C31_nothrow_partial",
    "Verif.Props.C31_zero",
    "Verif.Props.C31_refuted"
   ],
   "note": "the result type holds every result; the operation still throws when the operands do not fit the result type (refuted with witness)"
  },
  {
   "property": "C32",
   "status": "partial",
   "theorems": [
    "Verif.Props.C32_result_partial",
    "Verif.Props.C32_promote_partial",
    "Verif.Props.C32_exact",
    "Verif.Props.C32_iff",
    "Verif.Props.C32_shift_iff",
    "Verif.Props.C32_host_spec",
    "Verif.Props.C32_host_partial",
    "Verif.Props.C32_host_shift_partial",
    "Verif.Props.C32_uchar_refuted",
    "Verif.Props.C32_host_refuted",
    "Verif.Props.C32_unlisted_refuted",
    "Verif.Props.C32_shift_refuted",
    "Verif.Props.C32_unusable_refuted"
   ],
   "note": "Exactly which types deviate is proved for listed types of ordered machines (C32_exact, C32_iff, C32_shift_iff); narrow unsigned types, unlisted types, shifts and some machines refuted. On the machine on which the program runs the policy agrees with native promotion except for these (C32_host_partial, C32_host_shift_partial, C32_host_refuted)"
  },
  {
   "property": "C33",
   "status": "partial",
   "theorems": [
    "Verif.Props.C33_types",
    "Verif.Props.C33_iff",
    "Verif.Props.C33_compare_iff",
    "Verif.Props.C33_arith_partial",
    "Verif.Props.C33_compare_partial",
    "Verif.Props.C33_refuted"
   ],
   "note": "The property holds exactly when no negative operand meets an unsigned common type (C33_iff, C33_compare_iff: in all other cases the safe expression throws, unless a product is known to be zero or an order is known from the types); refuted with witness; % excluded; C33_types gives the type of every operator, shifts included"
  },
  {
   "property": "C34",
   "status": "partial",
   "theorems": [
    "Verif.Props.C34_strong",
    "Verif.Props.C34_step",
    "Verif.Props.C34_invariant",
    "Verif.Props.C34_append",
    "Verif.Props.C34_mod_refuted"
   ],
   "note": "proved for assignments, increments, + - * under every promotion policy and / under native promotion; the strong exception guarantee for every operator; the range invariant fails for %= (refuted with witness)"
  },
  {
   "property": "C35",
   "status": "proved",
   "theorems": [
    "Verif.Props.C35_exact",
    "Verif.Props.C35_zero",
    "Verif.Props.C35_const",
    "Verif.Props.C35_trap"
   ],
   "note": ""
  },
  {
   "property": "C36",
   "status": "proved",
   "theorems": [
    "Verif.Props.C36_inc",
    "Verif.Props.C36_dec",
    "Verif.Props.C36_native"
   ],
   "note": ""
  },
  {
   "property": "C37",
   "status": "partial",
   "theorems": [
    "Verif.Props.C37_compiles",
    "Verif.Props.C37_reads_partial",
    "Verif.Props.C37_accepts",
    "Verif.Props.C37_char_partial",
    "Verif.Props.C37_invariant_partial",
    "Verif.Props.C37_range_refuted",
    "Verif.Props.C37_text_refuted",
    "Verif.Props.C37_char_text_refuted",
    "Verif.Props.C37_char_empty_refuted",
    "Verif.Props.C37_compile_refuted"
   ],
   "note": "proved: what is read without exception is the number in the stream and in range (non-character types), numbers in range are accepted, the invariant holds for full range types; refuted with witnesses: range types lose their invariant when reading throws, character types accept text and read an uninitialised variable at end of file, and input does not compile for ranges outside int (C37_compiles: exactly for those). The standard library stream functions are modelled and trusted"
  },
  {
   "property": "C38",
   "status": "partial",
   "theorems": [
    "Verif.Props.C38_compl_value",
    "Verif.Props.C38_compl_unsigned_partial",
    "Verif.Props.C38_compl_refuted",
    "Verif.Props.C38_program",
    "Verif.Props.C38_neg",
    "Verif.Props.C38_neg_type"
   ],
   "note": "negation proved (value and type); complement: value proved always, range only for unsigned stored types, refuted for signed ones (exactly when: C78_compl)"
  },
  {
   "property": "C39",
   "status": "partial",
   "theorems": [
    "Verif.Props.C39_compound",
    "Verif.Props.C39_iff",
    "Verif.Props.C39_mod_partial",
    "Verif.Props.C39_mod_refuted"
   ],
   "note": "proved for + - * under every promotion policy, / under native promotion, % when the range contains zero; otherwise %= leaves the range (refuted with witness)"
  },
  {
   "property": "C40",
   "status": "partial",
   "theorems": [
    "Verif.Props.C40_signed",
    "Verif.Props.C40_unsigned",
    "Verif.Props.C40_make",
    "Verif.Props.C40_convert",
    "Verif.Props.C40_plus",
    "Verif.Props.C40_minus",
    "Verif.Props.C40_not_signed",
    "Verif.Props.C40_not_unsigned",
    "Verif.Props.C40_not_narrow",
    "Verif.Props.C40_minus_refuted"
   ],
   "note": "proved; minus is the literal -N exactly when the stored type of N represents -N (the stronger reading, any type, is refuted)"
  },
  {
   "property": "C41",
   "status": "partial",
   "theorems": [
    "Verif.Props.C41_policy_partial",
    "Verif.Props.C41_native",
    "Verif.Props.C41_compare",
    "Verif.Props.C41_consistent",
    "Verif.Props.C41_eq_native",
    "Verif.Props.C41_codes_refuted",
    "Verif.Props.C41_cpp_refuted"
   ],
   "note": "proved for native promotion and for policies that are symmetric; error codes differ by order under automatic promotion, values under emulation policies (refuted)"
  },
  {
   "property": "C42",
   "status": "proved",
   "theorems": [
    "Verif.Props.C42_messages",
    "Verif.Props.C42_message_names",
    "Verif.Props.C42_literals",
    "Verif.Props.C42_codes"
   ],
   "note": ""
  },
  {
   "property": "C43",
   "status": "proved",
   "theorems": [
    "Verif.Props.C43_trichotomy",
    "Verif.Props.C43_transitive",
    "Verif.Props.C43_cast_preserves"
   ],
   "note": ""
  },
  {
   "property": "C44",
   "status": "proved",
   "theorems": [
    "Verif.Props.C44_cast_roundtrip",
    "Verif.Props.C44_cast_widen"
   ],
   "note": ""
  },
  {
   "property": "C45",
   "status": "partial",
   "theorems": [
    "Verif.Props.C45_div_partial",
    "Verif.Props.C45_div_refuted"
   ],
   "note": "the quotient of the minimum by a positive-overflow marker is reported as 0 although it may be -1; proved otherwise"
  },
  {
   "property": "C46",
   "status": "partial",
   "theorems": [
    "Verif.Props.C46_shl",
    "Verif.Props.C46_shr_partial",
    "Verif.Props.C46_shr_refuted"
   ],
   "note": "right shift of an unsigned value by exactly its width is undefined behaviour; left shift fully proved"
  },
  {
   "property": "C47",
   "status": "proved",
   "theorems": [
    "Verif.Props.C47_noUb"
   ],
   "note": ""
  },
  {
   "property": "C48",
   "status": "proved",
   "theorems": [
    "Verif.Props.C48_limits"
   ],
   "note": ""
  },
  {
   "property": "C49",
   "status": "partial",
   "theorems": [
    "Verif.Props.C49_store_refuted",
    "Verif.Props.C49_shl_bounds",
    "Verif.Props.C49_shr_bounds_partial",
    "Verif.Props.C49_shr_refuted",
    "Verif.Props.C49_consequence_refuted"
   ],
   "note": "<< proved for the covered types of C26; >> proved except for unsigned ranges starting at 0 with possibly negative counts, where the result type is the wrong range (refuted: safe<unsigned>(100) >> 1 has type [0,0])"
  },
  {
   "property": "C50",
   "status": "proved",
   "theorems": [
    "Verif.Props.C50_signed",
    "Verif.Props.C50_unsigned"
   ],
   "note": ""
  },
  {
   "property": "C51",
   "status": "proved",
   "theorems": [
    "Verif.Props.C51_output",
    "Verif.Props.C51_numeral",
    "Verif.Props.C51_round_trip"
   ],
   "note": ""
  },
  {
   "property": "C52",
   "status": "partial",
   "theorems": [
    "Verif.Props.C52_shl",
    "Verif.Props.C52_shr_partial",
    "Verif.Props.C52_bit_partial",
    "Verif.Props.C52_or_refuted",
    "Verif.Props.C52_shr_width_refuted"
   ],
   "note": "<<= proved for covered types of C26; >>= and the bitwise ones with the exclusions of C26 and C27; refuted with witnesses outside"
  },
  {
   "property": "C53",
   "status": "partial",
   "theorems": [
    "Verif.Props.C53_arith_partial",
    "Verif.Props.C53_native_partial",
    "Verif.Props.C53_sub_partial",
    "Verif.Props.C53_sub_adds_refuted",
    "Verif.Props.C53_refuted",
    "Verif.Props.C53_unfit_refuted",
    "Verif.Props.C53_mod_partial",
    "Verif.Props.C53_shl_partial",
    "Verif.Props.C53_shr_partial",
    "Verif.Props.C53_compare_partial",
    "Verif.Props.C53_mod_refuted",
    "Verif.Props.C53_compare_refuted"
   ],
   "note": "+ and * proved for safe operands that are values of the result type, / and % for native promotion (% except the smallest value by itself), shifts for every promotion policy (except a count of zero), comparisons up to the answers that the ranges decide; - proved only when the difference fits. Refuted: an ignored subtraction out of range yields the sum, and an operand of a safe type that is not a value of the result type makes every arithmetic operator undefined (C53_unfit_refuted, for all such operands)"
  },
  {
   "property": "C54",
   "status": "partial",
   "theorems": [
    "Verif.Props.C54_keeps_partial",
    "Verif.Props.C54_ub_refuted",
    "Verif.Props.C54_refuted"
   ],
   "note": "proved that representable values are kept; refuted: every other value reads the inactive member of a union (undefined behaviour)"
  },
  {
   "property": "C55",
   "status": "partial",
   "theorems": [
    "Verif.Props.C55_default_partial",
    "Verif.Props.C55_refuted"
   ],
   "note": "the outcome of default construction is proved for every policy; refuted for the policies that ignore uninitialized_value, which include the default policy"
  },
  {
   "property": "C56",
   "status": "partial",
   "theorems": [
    "Verif.Props.C56_div",
    "Verif.Props.C56_div_native",
    "Verif.Props.C56_mod_partial",
    "Verif.Props.C56_shl_partial",
    "Verif.Props.C56_shr_partial",
    "Verif.Props.C56_div_policy_bounds_partial",
    "Verif.Props.C56_div_bounds",
    "Verif.Props.C56_shl_bounds_partial",
    "Verif.Props.C56_shr_bounds_partial",
    "Verif.Props.C56_mod_refuted",
    "Verif.Props.C56_shl_refuted"
   ],
   "note": "/ proved for all operand types (native promotion; other policies if the divisor fits the result type); %, <<, >> with the exclusions of C25 and C26; refuted with witnesses for % and <<, which accept programs with undefined behaviour"
  },
  {
   "property": "C57",
   "status": "proved",
   "theorems": [
    "Verif.Props.C57_common",
    "Verif.Props.C57_common_cases",
    "Verif.Props.C57_tree",
    "Verif.Props.C57_mixed"
   ],
   "note": "proved for all expression trees"
  },
  {
   "property": "C58",
   "status": "partial",
   "theorems": [
    "Verif.Props.C58_exact_partial",
    "Verif.Props.C58_cond_partial"
   ],
   "note": "policies may throw or trap and differ between variables. proved for covered expressions: +, -, *, unary minus and plus, conversions, comparisons without restriction; / when the result type represents both operands and is as wide as their types or represents all quotients (always so for native promotion); %, bitwise and shift operators on the operand types for which C25, C26, C27, C49 hold (they are refuted there for others).; for all other programs see C88 (value conditions along the execution)"
  },
  {
   "property": "C59",
   "status": "partial",
   "theorems": [
    "Verif.Props.C59_safe_partial",
    "Verif.Props.C59_bound"
   ],
   "note": "proved for covered programs: expressions as in C58; variables that are read have the full range of a type other than a character type (others are refuted in C37); for all other programs see C88 (value conditions along the execution)"
  },
  {
   "property": "C60",
   "status": "partial",
   "theorems": [
    "Verif.Props.C60_rules",
    "Verif.Props.C60_unique",
    "Verif.Props.C60_unroll",
    "Verif.Props.C60_try_seq",
    "Verif.Props.C60_bound",
    "Verif.Props.C60_refines_partial",
    "Verif.Props.C60_transfer_partial",
    "Verif.Props.C60_undefined_partial",
    "Verif.Props.C60_iread"
   ],
   "note": "proved for covered programs as in C59; C60_rules (control flow follows the rules of C++ statements) holds for all programs; for all other programs see C88 (value conditions along the execution)"
  },
  {
   "property": "C61",
   "status": "partial",
   "theorems": [
    "Verif.Props.C61_arith",
    "Verif.Props.C61_div",
    "Verif.Props.C61_cast",
    "Verif.Props.C61_shl",
    "Verif.Props.C61_shr_partial",
    "Verif.Props.C61_bitwise",
    "Verif.Props.C61_cast_listed",
    "Verif.Props.C61_listed",
    "Verif.Props.C61_decrement_refuted"
   ],
   "note": "proved for +, -, *, /, casts, left shift, bitwise operators; right shift except by exactly the number of digits of an unsigned type of at least the size of int (undefined, C09)"
  },
  {
   "property": "C62",
   "status": "partial",
   "theorems": [
    "Verif.Props.C62_exact_partial",
    "Verif.Props.C62_cond_partial",
    "Verif.Props.C62_truth_partial",
    "Verif.Props.C62_input",
    "Verif.Props.C62_total_partial"
   ],
   "note": "proved for covered programs as in C59 (the operators that are refuted in C56 for some operand types are excluded on those)"
  },
  {
   "property": "C63",
   "status": "partial",
   "theorems": [
    "Verif.Props.C63_mod_partial",
    "Verif.Props.C63_total",
    "Verif.Props.C63_extreme",
    "Verif.Props.C63_refuted"
   ],
   "note": "value dividends proved except the pair (min,min) and the defects of C45; for a dividend beyond the range the code returns the extreme remainder, a bound for positive divisors and wrong for negative ones (refuted)"
  },
  {
   "property": "C64",
   "status": "proved",
   "theorems": [
    "Verif.Props.C64_values",
    "Verif.Props.C64_errors"
   ],
   "note": ""
  },
  {
   "property": "C65",
   "status": "proved",
   "theorems": [
    "Verif.Props.C65_sign",
    "Verif.Props.C65_markers",
    "Verif.Props.C65_zero",
    "Verif.Props.C65_bound_only"
   ],
   "note": ""
  },
  {
   "property": "C66",
   "status": "partial",
   "theorems": [
    "Verif.Props.C66_operator_partial",
    "Verif.Props.C66_expr_partial",
    "Verif.Props.C66_cond_partial",
    "Verif.Props.C66_program_partial"
   ],
   "note": "proved for covered programs as in C59. The left shift of 0 by the full number of digits counts as not fitting; C71 shows that it and everything else that does not fit is reported"
  },
  {
   "property": "C67",
   "status": "partial",
   "theorems": [
    "Verif.Props.C67_compiles_partial",
    "Verif.Props.C67_operator_partial",
    "Verif.Props.C67_compare",
    "Verif.Props.C67_construct",
    "Verif.Props.C67_toBuiltin",
    "Verif.Props.C67_expr_partial",
    "Verif.Props.C67_expr_accepted_partial",
    "Verif.Props.C67_expr_uniform_partial",
    "Verif.Props.C67_cond_partial",
    "Verif.Props.C67_program_partial",
    "Verif.Props.C67_total_partial",
    "Verif.Props.C67_gcd"
   ],
   "note": "conversions and comparisons proved without restriction; operators and programs on the covered operand types of C58/C59"
  },
  {
   "property": "C68",
   "status": "partial",
   "theorems": [
    "Verif.Props.C68_looseException",
    "Verif.Props.C68_looseTrap",
    "Verif.Props.C68_strictException_partial",
    "Verif.Props.C68_strictException_refuted",
    "Verif.Props.C68_strictTrap",
    "Verif.Props.C68_default",
    "Verif.Props.C68_ub_unused"
   ],
   "note": "proved for all codes and policies; refuted for strict_exception_policy and uninitialized_value"
  },
  {
   "property": "C69",
   "status": "partial",
   "theorems": [
    "Verif.Props.C69_sound_partial",
    "Verif.Props.C69_safe_partial",
    "Verif.Props.C69_trap",
    "Verif.Props.C69_ignore_partial",
    "Verif.Props.C69_literal_partial",
    "Verif.Props.C69_builtin",
    "Verif.Props.C69_refuted"
   ],
   "note": "an answer is always right; refuted: values other than 0 and 1 throw, and no safe value compiles as a condition with a trapping policy"
  },
  {
   "property": "C70",
   "status": "proved",
   "theorems": [
    "Verif.Props.C70_arrives",
    "Verif.Props.C70_one_step",
    "Verif.Props.C70_course"
   ],
   "note": "the statement describes what the program does, including the moves by one step that it gets wrong (a finding). Functions are expanded, output is left out, one machine (int of 32 bits, emulating the PIC policy)"
  },
  {
   "property": "C71",
   "status": "partial",
   "theorems": [
    "Verif.Props.C71_operator_partial",
    "Verif.Props.C71_expr_partial",
    "Verif.Props.C71_cond_partial",
    "Verif.Props.C71_fits_partial",
    "Verif.Props.C71_program_partial"
   ],
   "note": "an equivalence for covered operations and programs as in C59; the operations that are not covered are those the code gets wrong (shifts of C26, bitwise operators of C27, comparisons of C28) and character input. The left shift of 0 by the full number of digits or more counts as not fitting (it throws although the result 0 is representable)"
  },
  {
   "property": "C72",
   "status": "proved",
   "theorems": [
    "Verif.Props.C72_example1",
    "Verif.Props.C72_example1_builtin",
    "Verif.Props.C72_example8",
    "Verif.Props.C72_example11",
    "Verif.Props.C72_example2",
    "Verif.Props.C72_example3",
    "Verif.Props.C72_example4",
    "Verif.Props.C72_example5",
    "Verif.Props.C72_example19_assign",
    "Verif.Props.C72_example19_times",
    "Verif.Props.C72_example19_sum",
    "Verif.Props.C72_example7",
    "Verif.Props.C72_example10",
    "Verif.Props.C72_example13",
    "Verif.Props.C72_example16",
    "Verif.Props.C72_example17",
    "Verif.Props.C72_example18",
    "Verif.Props.C72_example81",
    "Verif.Props.C72_example82",
    "Verif.Props.C72_example83",
    "Verif.Props.C72_example6",
    "Verif.Props.C72_example6_builtin",
    "Verif.Props.C72_example84",
    "Verif.Props.C72_example84_input",
    "Verif.Props.C72_example20"
   ],
   "note": "the statements describe what each program does; three comments of the examples are wrong (findings in DESIGN.md). Output text and handlers that only print are left out; one machine (int of 32 bits). Reading from a stream in example5 and example84 is left out"
  },
  {
   "property": "C73",
   "status": "partial",
   "theorems": [
    "Verif.Props.C73_operator_partial",
    "Verif.Props.C73_arith",
    "Verif.Props.C73_throwing_partial",
    "Verif.Props.C73_arith_throwing",
    "Verif.Props.C73_construct",
    "Verif.Props.C73_construct_throwing",
    "Verif.Props.C73_toBuiltin",
    "Verif.Props.C73_compare",
    "Verif.Props.C73_toBuiltin_refuted",
    "Verif.Props.C73_compare_refuted",
    "Verif.Props.C73_operator_refuted"
   ],
   "note": "sum, difference, product, construction and comparison without restriction (C73_arith, C73_arith_throwing, C73_construct, C73_compare); the other operators for covered operand types as in C59. The equivalence with the throwing policy fails for conversion to built-in types and for order comparisons decided at compile time (over-rejection, C73_toBuiltin_refuted, C73_compare_refuted) and for % with the minimum (C73_operator_refuted)"
  },
  {
   "property": "C74",
   "status": "partial",
   "theorems": [
    "Verif.Props.C74_expression_partial",
    "Verif.Props.C74_condition_partial",
    "Verif.Props.C74_program_partial",
    "Verif.Props.C74_ends_partial",
    "Verif.Props.C74_reported_partial",
    "Verif.Props.C74_three_partial",
    "Verif.Props.C74_refuted_shl",
    "Verif.Props.C74_refuted_compare",
    "Verif.Props.C74_refuted_automatic",
    "Verif.Props.C74_char_round_trip",
    "Verif.Props.C74_refuted_char_output",
    "Verif.Props.C74_refuted_char_input"
   ],
   "note": "covered programs as in C59 with native promotion; not for left shifts of negative numbers by zero (C++ 14 undefined, the library returns the number), comparisons of disjoint ranges of mixed signedness (decided at compile time, the built-in comparison is wrong) and automatic promotion (C74_refuted_shl, C74_refuted_compare, C74_refuted_automatic); input and output of 8-bit types is excluded, because safe types read and write numbers and built-in characters characters (C74_refuted_char_output, C74_refuted_char_input)"
  },
  {
   "property": "C75",
   "status": "proved",
   "theorems": [
    "Verif.Props.C75_add",
    "Verif.Props.C75_sub",
    "Verif.Props.C75_neg",
    "Verif.Props.C75_mul",
    "Verif.Props.C75_div",
    "Verif.Props.C75_mod",
    "Verif.Props.C75_shl",
    "Verif.Props.C75_shr",
    "Verif.Props.C75_modulus",
    "Verif.Props.C75_rightShift",
    "Verif.Props.C75_cast",
    "Verif.Props.C75_roundOut"
   ],
   "note": ""
  },
  {
   "property": "C76",
   "status": "proved",
   "theorems": [
    "Verif.Props.C76_shl",
    "Verif.Props.C76_shr",
    "Verif.Props.C76_mod",
    "Verif.Props.C76_div",
    "Verif.Props.C76_rem",
    "Verif.Props.C76_agree",
    "Verif.Props.C76_left",
    "Verif.Props.C76_right",
    "Verif.Props.C76_agree_shift"
   ],
   "note": "All four operators with every promotion policy (C76_div, C76_rem, C76_left, C76_right); C76_shl, C76_shr, C76_mod are the simpler descriptions for native promotion, C76_agree and C76_agree_shift say that they agree."
  },
  {
   "property": "C77",
   "status": "proved",
   "theorems": [
    "Verif.Props.C77_arith",
    "Verif.Props.C77_div",
    "Verif.Props.C77_shl",
    "Verif.Props.C77_shr",
    "Verif.Props.C77_automatic",
    "Verif.Props.C77_automatic_div",
    "Verif.Props.C77_automatic_shl",
    "Verif.Props.C77_automatic_shr",
    "Verif.Props.C77_bitwise",
    "Verif.Props.C77_native",
    "Verif.Props.C77_compound",
    "Verif.Props.C77_compoundBit"
   ],
   "note": ""
  },
  {
   "property": "C78",
   "status": "proved",
   "theorems": [
    "Verif.Props.C78_compiles",
    "Verif.Props.C78_bounds",
    "Verif.Props.C78_compl"
   ],
   "note": ""
  },
  {
   "property": "C79",
   "status": "proved",
   "theorems": [
    "Verif.Props.C79_conv",
    "Verif.Props.C79_add",
    "Verif.Props.C79_sub",
    "Verif.Props.C79_mul",
    "Verif.Props.C79_neg",
    "Verif.Props.C79_shr",
    "Verif.Props.C79_shl",
    "Verif.Props.C79_div",
    "Verif.Props.C79_mod",
    "Verif.Props.C79_compare",
    "Verif.Props.C79_promote",
    "Verif.Props.C79_uac"
   ],
   "note": "checks the trusted C++ semantics of Cpp.lean against Lean's BitVec; |, &, ^ and ~ are defined by BitVec operations in the model"
  },
  {
   "property": "C80",
   "status": "proved",
   "theorems": [
    "Verif.Props.C80_arrives",
    "Verif.Props.C80_stops",
    "Verif.Props.C80_iff",
    "Verif.Props.C80_ends",
    "Verif.Props.C80_runaway",
    "Verif.Props.C80_stays"
   ],
   "note": "exact description of every move; the output of the program and the registers that are only written are not described"
  },
  {
   "property": "C81",
   "status": "partial",
   "theorems": [
    "Verif.Props.C81_shl_partial",
    "Verif.Props.C81_shr_partial",
    "Verif.Props.C81_total",
    "Verif.Props.C81_unknown",
    "Verif.Props.C81_refuted",
    "Verif.Props.C81_shl_iff",
    "Verif.Props.C81_shr_iff"
   ],
   "note": "Holds for all operands except those listed by C81_shl_iff and C81_shr_iff, which are exact: an overflow marker shifted towards zero (for unsigned types only the upper one), an unsigned value with a count known only to be below zero (unless the answer happens to fit), and the undefined case of C46; C81_refuted shows concrete cases. A marker may stand for the extreme value itself, as in C46."
  },
  {
   "property": "C82",
   "status": "partial",
   "theorems": [
    "Verif.Props.C82_type_partial",
    "Verif.Props.C82_outcome_partial",
    "Verif.Props.C82_native",
    "Verif.Props.C82_bitwise_partial",
    "Verif.Props.C82_equal_partial",
    "Verif.Props.C82_order",
    "Verif.Props.C82_native_equal",
    "Verif.Props.C82_refuted",
    "Verif.Props.C82_code_refuted",
    "Verif.Props.C82_user_refuted"
   ],
   "note": "Fails for the cpp policy with two widths it does not know (C82_refuted); `Ranked` excludes exactly that. The codes of the exceptions may differ except under native promotion (C82_code_refuted)."
  },
  {
   "property": "C83",
   "status": "partial",
   "theorems": [
    "Verif.Props.C83_same_partial",
    "Verif.Props.C83_ends_partial",
    "Verif.Props.C83_trap_partial",
    "Verif.Props.C83_refuted",
    "Verif.Props.C83_blame",
    "Verif.Props.C83_other"
   ],
   "note": "The _partial theorems are for programs covered by C58-C60 (SCovered); the property fails for others (C83_refuted). For all programs C83_blame and C83_other say what goes wrong: an operation that is not clean in the sense of C88 was carried out."
  },
  {
   "property": "C84",
   "status": "partial",
   "theorems": [
    "Verif.Props.C84_blame",
    "Verif.Props.C84_assign",
    "Verif.Props.C84_output",
    "Verif.Props.C84_opAssign",
    "Verif.Props.C84_incDec",
    "Verif.Props.C84_unroll",
    "Verif.Props.C84_seq",
    "Verif.Props.C84_seq_laws",
    "Verif.Props.C84_ite",
    "Verif.Props.C84_ite_not",
    "Verif.Props.C84_while",
    "Verif.Props.C84_expression_partial",
    "Verif.Props.C84_program_partial",
    "Verif.Props.C84_ends_partial",
    "Verif.Props.C84_distributive"
   ],
   "note": "The _partial theorems are for programs covered by C58-C60 (SCovered); the property fails for others (C83_refuted). For all programs C84_blame says what goes wrong: an operation that is not clean in the sense of C88 was carried out."
  },
  {
   "property": "C85",
   "status": "partial",
   "theorems": [
    "Verif.Props.C85_result",
    "Verif.Props.C85_result_injective",
    "Verif.Props.C85_interval",
    "Verif.Props.C85_range",
    "Verif.Props.C85_format",
    "Verif.Props.C85_display",
    "Verif.Props.C85_flag_refuted",
    "Verif.Props.C85_example20"
   ],
   "note": "All but reading back: the flag and the value are printed without a separator, so that the text of a negative value reads back as 0 (C85_flag_refuted)."
  },
  {
   "property": "C86",
   "status": "partial",
   "theorems": [
    "Verif.Props.C86_cast",
    "Verif.Props.C86_exact_partial",
    "Verif.Props.C86_silent",
    "Verif.Props.C86_construct",
    "Verif.Props.C86_ends",
    "Verif.Props.C86_ieee",
    "Verif.Props.C86_default_order",
    "Verif.Props.C86_default_equal_partial",
    "Verif.Props.C86_refuted",
    "Verif.Props.C86_default_equal_refuted"
   ],
   "note": "The cast truncates silently, and is undefined where the integer part does not fit (C86_cast is the exact description); the default equal compares with < (C86_default_equal_refuted); construction from floating point never compiles."
  },
  {
   "property": "C87",
   "status": "partial",
   "theorems": [
    "Verif.Props.C87_digits_partial",
    "Verif.Props.C87_digits10",
    "Verif.Props.C87_digits10_partial",
    "Verif.Props.C87_signed_partial",
    "Verif.Props.C87_modulo",
    "Verif.Props.C87_modulo_partial",
    "Verif.Props.C87_refuted"
   ],
   "note": "The members are those of the stored type; the theorems say exactly for which ranges they are right. is_modulo is never right for unsigned stored types (C87_modulo, C87_refuted). digits10 is right for the stored types (C87_digits10), and for ranges under the condition of C87_digits10_partial."
  },
  {
   "property": "C88",
   "status": "proved",
   "theorems": [
    "Verif.Props.C88_clean",
    "Verif.Props.C88_blame",
    "Verif.Props.C88_endless",
    "Verif.Props.C88_operator",
    "Verif.Props.C88_quotient",
    "Verif.Props.C88_exact",
    "Verif.Props.C88_firm",
    "Verif.Props.C88_always",
    "Verif.Props.C88_covered",
    "Verif.Props.C88_handlers",
    "Verif.Props.C88_blame_handlers",
    "Verif.Props.C88_endless_handlers",
    "Verif.Props.C88_may"
   ],
   "note": "Holds for all programs (SProper only says that constants are values of their types). C88_exact: for operators of safe types the list is exact with a policy that throws and every promotion policy; C88_firm: also with a policy that traps, for operations that compile. For built-in operands the conditions are sufficient, not exact. Failing built-in input counts as suspect."
  },
  {
   "property": "C89",
   "status": "proved",
   "theorems": [
    "Verif.Props.C89_explains",
    "Verif.Props.C89_fits",
    "Verif.Props.C89_count",
    "Verif.Props.C89_quiet",
    "Verif.Props.C89_last"
   ],
   "note": "C89_explains holds without any assumption. The others are for executions whose operations are clean in the sense of C88 (for covered programs: always, by C88_covered). Strengthens C66 and C71, which are for covered programs and only say whether there is an exception."
  },
  {
   "property": "C90",
   "status": "proved",
   "theorems": [
    "Verif.Props.C90_outcomes",
    "Verif.Props.C90_char_outcomes",
    "Verif.Props.C90_white",
    "Verif.Props.C90_digit",
    "Verif.Props.C90_stream"
   ],
   "note": "An exact table; that some of its entries are not what one would want (values out of range stay in the variable, text read as zero, undefined behaviour) is C37. Formatted input of int by the standard library is modelled (Stream), not part of /repo."
  },
  {
   "property": "C91",
   "status": "proved",
   "theorems": [
    "Verif.Props.C91_operators",
    "Verif.Props.C91_comparisons",
    "Verif.Props.C91_conversions",
    "Verif.Props.C91_input",
    "Verif.Props.C91_strictest",
    "Verif.Props.C91_user_throw",
    "Verif.Props.C91_user_ignore",
    "Verif.Props.C91_alike",
    "Verif.Props.C91_transparent",
    "Verif.Props.C91_careful"
   ],
   "note": "Handlers of the user are modelled by the codes for which they return; for the others they throw. Other effects of a handler (logging) are not visible to the program; handlers that abort or do not come back are not modelled. C91_careful carries the theorems on careful programs over to handlers of the user that do not return."
  },
  {
   "property": "C92",
   "status": "proved",
   "theorems": [
    "Verif.Props.C92_expr",
    "Verif.Props.C92_cond",
    "Verif.Props.C92_order",
    "Verif.Props.C92_model",
    "Verif.Props.C92_quiet",
    "Verif.Props.C92_safe",
    "Verif.Props.C92_refines",
    "Verif.Props.C92_covered",
    "Verif.Props.C92_condition_needed",
    "Verif.Props.C92_ends",
    "Verif.Props.C92_ends_covered"
   ],
   "note": "Executions that have not ended are a relation of their own (Unfinished); C92_ends shows that whether a program that faults in no order ends, and after how many nested steps, does not depend on the order. In C92_order and the others 'every order' means every order that comes to an end. C92_condition_needed shows that the condition of C92_order cannot be dropped."
  },
  {
   "property": "C93",
   "status": "partial",
   "theorems": [
    "Verif.Props.C93_operator_partial",
    "Verif.Props.C93_trap_partial",
    "Verif.Props.C93_arith",
    "Verif.Props.C93_native",
    "Verif.Props.C93_type",
    "Verif.Props.C93_type_div",
    "Verif.Props.C93_automatic_type",
    "Verif.Props.C93_compare_partial",
    "Verif.Props.C93_construct",
    "Verif.Props.C93_automatic_refuted",
    "Verif.Props.C93_modulo_refuted",
    "Verif.Props.C93_compare_refuted",
    "Verif.Props.C93_type_refuted"
   ],
   "note": "without restriction for + - * (values, acceptance), for / with native promotion and for construction, with the policies native and cpp; the other operators for covered operand types (C58). The statement is false for automatic promotion (C93_automatic_refuted), for % with the minimum (C93_modulo_refuted), for comparisons in an unsigned type with an operand that is always negative (C93_compare_refuted), and for result types where every result overflows (C93_type_refuted)."
  },
  {
   "property": "C94",
   "status": "partial",
   "theorems": [
    "Verif.Props.C94_same",
    "Verif.Props.C94_strict_total",
    "Verif.Props.C94_agree",
    "Verif.Props.C94_mixed_partial",
    "Verif.Props.C94_one_partial",
    "Verif.Props.C94_mixed_refuted",
    "Verif.Props.C94_ignore_refuted",
    "Verif.Props.C94_cpp_refuted"
   ],
   "note": "one type: proved for every exception policy and native, automatic and ordered cpp promotion (C94_same, C94_strict_total, C94_agree); several types: answers never contradict (throwing and trapping policies), but a comparison may throw (C94_mixed_refuted) or, with an ignoring policy, be undefined behaviour (C94_ignore_refuted); cpp promotion with char wider than int refuted"
  },
  {
   "property": "C95",
   "status": "proved",
   "theorems": [
    "Verif.Props.C95_type",
    "Verif.Props.C95_covered",
    "Verif.Props.C95_safe",
    "Verif.Props.C95_integers",
    "Verif.Props.C95_exceptions",
    "Verif.Props.C95_trap"
   ],
   "note": "the subset is decidable from the text and the declared types; conditions of C58-C62, C71 are discharged once and for all (C95_covered). What is left out (automatic promotion of %, remainders with other divisor ranges, bitwise operators on negative ranges, shifts of computed values) is where the refutations of C25, C26, C27, C31, C49 live."
  },
  {
   "property": "C96",
   "status": "proved",
   "theorems": [
    "Verif.Props.C96_span",
    "Verif.Props.C96_operator",
    "Verif.Props.C96_native",
    "Verif.Props.C96_expr",
    "Verif.Props.C96_program",
    "Verif.Props.C96_run",
    "Verif.Props.C96_counter"
   ],
   "note": "interval arithmetic (span, hull) is stated without any definition of the library except cppResult, the table of types of the policy cpp. Division is included for native promotion only (the intervals of a quotient are wrong otherwise, C24_automatic_refuted). Remainders, bitwise operators and shifts are left out: their computed bounds are not the hull (C29_mod_iff, C78)."
  },
  {
   "property": "C97",
   "status": "proved",
   "theorems": [
    "Verif.Props.C97_strictest",
    "Verif.Props.C97_policies",
    "Verif.Props.C97_operators",
    "Verif.Props.C97_comparisons",
    "Verif.Props.C97_conversions",
    "Verif.Props.C97_input",
    "Verif.Props.C97_program",
    "Verif.Props.C97_hulls"
   ],
   "note": "Compile-time selection of other overloads by the policy type (none in the modelled code) is not considered; handlers as in C91."
  },
  {
   "property": "C98",
   "status": "partial",
   "theorems": [
    "Verif.Props.C98_total_order_partial",
    "Verif.Props.C98_exec_partial",
    "Verif.Props.C98_runs_partial",
    "Verif.Props.C98_unique",
    "Verif.Props.C98_sound_partial",
    "Verif.Props.C98_complete_partial",
    "Verif.Props.C98_total_sound_partial",
    "Verif.Props.C98_total_complete_partial",
    "Verif.Props.C98_logic_partial",
    "Verif.Props.C98_order_partial",
    "Verif.Props.C98_logic_order_partial",
    "Verif.Props.C98_subset"
   ],
   "note": "proved for covered programs as in C59. Missing: the operations that are not covered (those the code gets wrong, see C71), and reading into ranged or character variables. Programs are accepted in the sense of C67; without that hypothesis the outcome may also be that the program does not compile."
  },
  {
   "property": "C99",
   "status": "proved",
   "theorems": [
    "Verif.Props.C99_bound",
    "Verif.Props.C99_blame",
    "Verif.Props.C99_ends",
    "Verif.Props.C99_safe_needed",
    "Verif.Props.C99_policy_needed",
    "Verif.Props.C99_steady_needed"
   ],
   "note": "Covered programs as in C59 (what the code gets wrong is excluded there). C99_bound gives the explicit bound, C99_blame the same for programs that are not covered, C99_ends the end in the order of the model and, for programs that compile, in every order. C99_safe_needed, C99_policy_needed and C99_steady_needed show that each hypothesis is needed: endless loops with a built-in counter, an ignoring policy, and steps in both directions."
  },
  {
   "property": "C100",
   "status": "partial",
   "theorems": [
    "Verif.Props.C100_expression_partial",
    "Verif.Props.C100_condition_partial",
    "Verif.Props.C100_fits_partial",
    "Verif.Props.C100_program_partial",
    "Verif.Props.C100_accepted_partial",
    "Verif.Props.C100_order_partial",
    "Verif.Props.C100_reported_partial",
    "Verif.Props.C100_refuted_unsigned",
    "Verif.Props.C100_refuted_automatic",
    "Verif.Props.C100_refuted_width"
   ],
   "note": "covered programs as in C59 with native promotion whose types are all promoted to signed types; the wider program may not be accepted by the compiler (a policy that traps); false for unsigned types as wide as int, automatic promotion and narrower stored types (C100_refuted_unsigned, C100_refuted_automatic, C100_refuted_width)"
  },
  {
   "property": "C101",
   "status": "partial",
   "theorems": [
    "Verif.Props.C101_same",
    "Verif.Props.C101_order",
    "Verif.Props.C101_host_partial",
    "Verif.Props.C101_small_partial",
    "Verif.Props.C101_machines",
    "Verif.Props.C101_refuted_unsigned",
    "Verif.Props.C101_refuted_shift",
    "Verif.Props.C101_refuted_listed"
   ],
   "note": "proved for programs without unsigned types narrower than int and without shifts (C101_host_partial), or with shifts and only signed types not wider than int (C101_small_partial); C101_same and C101_order are the general result for policies that give the same types, C101_machines compares two emulated machines. False for unsigned char and for shifts by wider counts (C101_refuted_unsigned, C101_refuted_shift)"
  },
  {
   "property": "C102",
   "status": "partial",
   "theorems": [
    "Verif.Props.C102_expression_partial",
    "Verif.Props.C102_operation",
    "Verif.Props.C102_fits_partial",
    "Verif.Props.C102_program_partial",
    "Verif.Props.C102_accepted_partial",
    "Verif.Props.C102_order_partial",
    "Verif.Props.C102_refuted_range",
    "Verif.Props.C102_refuted_unsigned",
    "Verif.Props.C102_refuted_literal"
   ],
   "note": "proved for +, -, *, unary minus, comparisons, casts and all statements on signed types that contain -1 and 1 (C102_program_partial, C102_accepted_partial, C102_order_partial); both versions of the program must be covered, and literals of the library are excluded (they must be: C102_refuted_literal). Not proved for division, remainder, bitwise operators and shifts. False for ranges on one side of zero (C102_refuted_range) and for unsigned types (C102_refuted_unsigned)"
  },
  {
   "property": "C103",
   "status": "partial",
   "theorems": [
    "Verif.Props.C103_expression_partial",
    "Verif.Props.C103_condition_partial",
    "Verif.Props.C103_program_partial",
    "Verif.Props.C103_order_partial",
    "Verif.Props.C103_reported_partial",
    "Verif.Props.C103_refuted_caught",
    "Verif.Props.C103_refuted_ignored"
   ],
   "note": "for programs covered under both choices; exceptions thrown or trapped. False with handlers that catch (C103_refuted_caught) and with errors ignored (C103_refuted_ignored)"
  }
 ]
}