{
 "claims": [
  {
   "property": "C01",
   "status": "partial",
   "theorems": [
    "PS.C01_pi_partial",
    "PS.C01_z_bound",
    "PS.C01_z_default",
    "PS.C01_pi_reach_partial",
    "PS.C01_pi_below",
    "PS.C01_counterexample",
    "PS.C01_pi_exceptional_partial",
    "PS.C01_powers_of_ten",
    "PS.C01_powers_of_two",
    "PS.C01_almost_all_partial",
    "PS.C01_exact_partial"
   ],
   "note": "The unrestricted claim is false: C01_counterexample proves that pi(52175271301331128848) is 2^128 too large for every alpha, thread count, schedule and timing. Proved for every x below that (C01_pi_below). Below 7.8*10^20 exactly 32 results are wrong, and the value returned is given for each (C01_exact_partial). Beyond, proved for every x none of whose quotients is one of seven numbers (C01_pi_exceptional_partial), hence for all but one x in 3*10^8 up to 5*10^29 (C01_almost_all_partial) and for the powers of ten and two up to 10^29 and 2^98 (C01_powers_of_ten, C01_powers_of_two), given x < 2^103 and x/y + 129 < 2^59 (automatic for x < 2^88, and for x <= 5*10^29 with the default tuning factor: C01_pi_reach_partial)."
  },
  {
   "property": "C02",
   "status": "partial",
   "theorems": [
    "PS.C02_deterministic_partial"
   ],
   "note": "Proved for x < 2^103 and x/y + 129 < 2^59, including the x for which the value is wrong. Beyond that the sums of BitSieve can overflow while those of the binary indexed tree do not."
  },
  {
   "property": "C03",
   "status": "partial",
   "theorems": [
    "PS.C03_y_range",
    "PS.C03_alpha_partial"
   ],
   "note": "Proved for x < 5.2*10^19, and under NoWindow for x < 2^88, with the default tuning factor for x <= 5*10^29. The range of y, computed with double arithmetic, is proved for every x < 2^106."
  },
  {
   "property": "C04",
   "status": "partial",
   "theorems": [
    "PS.C04_mono_exact_partial",
    "PS.C04_lmo_small",
    "PS.C04_pi_small",
    "PS.C04_pi_mono_partial",
    "PS.C04_counterexample"
   ],
   "note": "x < 2 gives 0: proved for all integers. Monotone and nonnegative: proved for x < 5.2*10^19; beyond that it is false (C04_counterexample). The command line option --lmo* truncates x < -2^63 to 64 bits, so it can print a nonzero result there (C42_counterexample)."
  },
  {
   "property": "C05",
   "status": "proved",
   "theorems": [
    "PS.C05_pi_lmo1",
    "PS.C05_counterexample"
   ],
   "note": "Every x < 5.2*10^19, which includes all 64-bit x; beyond that the claim is false (C05_counterexample)."
  },
  {
   "property": "C06",
   "status": "partial",
   "theorems": [
    "PS.C06_domain",
    "PS.C06_pi_lmo2_partial",
    "PS.C06_no_overflow"
   ],
   "note": "Proved for every x whose sum of primes is < 2^63 if int64_t arithmetic wraps around. C++ leaves overflow undefined: no overflow is proved for x < 2^29; near the end of the range (x about 2*10^10, where S2 is about 1.2 times the sum of the primes) S2_result does exceed 63 bits."
  },
  {
   "property": "C07",
   "status": "partial",
   "theorems": [
    "PS.C07_pi_lmo3_partial",
    "PS.C07_no_overflow"
   ],
   "note": "Proved for every x whose sum of primes is < 2^63 if int64_t arithmetic wraps around. C++ leaves overflow undefined: no overflow is proved for x < 2^29; near the end of the range (x about 2*10^10, where S2 is about 1.2 times the sum of the primes) S2_result does exceed 63 bits."
  },
  {
   "property": "C08",
   "status": "proved",
   "theorems": [
    "PS.C08_pi_lmo4",
    "PS.C08_no_overflow"
   ],
   "note": "Every x whose sum of primes is < 2^63; C08_no_overflow shows that the int128_t sums do not overflow."
  },
  {
   "property": "C09",
   "status": "partial",
   "theorems": [
    "PS.C09_pi_lmo5_partial",
    "PS.C09_no_overflow"
   ],
   "note": "Proved for every x whose sum of primes is < 2^63 if int64_t arithmetic wraps around. C++ leaves overflow undefined: no overflow is proved for x < 2^29; near the end of the range (x about 2*10^10, where S2 is about 1.2 times the sum of the primes) S2_result does exceed 63 bits."
  },
  {
   "property": "C10",
   "status": "partial",
   "theorems": [
    "PS.C10_pi_lmo_parallel1_partial",
    "PS.C10_below",
    "PS.C10_default",
    "PS.C10_limit"
   ],
   "note": "Proved for x < 2^62, for every 64-bit x with the default tuning factor (C10_default), and for x < 2^63 if y < 2^31; false for y >= 2147483659, which large tuning factors produce (C10_limit)."
  },
  {
   "property": "C11",
   "status": "proved",
   "theorems": [
    "PS.C11_P2",
    "PS.C11_deterministic",
    "PS.C11_limit",
    "PS.C11_iterators"
   ],
   "note": ""
  },
  {
   "property": "C12",
   "status": "partial",
   "theorems": [
    "PS.C12_low128",
    "PS.C12_S1_64_partial",
    "PS.C12_S1_64_fits_partial",
    "PS.C12_S1_below_partial",
    "PS.C12_S1_128_partial",
    "PS.C12_limit"
   ],
   "note": "int128_t version: proved for all x < 2^63, y^2 < 2^63 with c >= 3 or y < 8 (always the case for c = get_c(y)), and for any c when x < 2^60 or the sum fits; for larger y an int64_t product overflows (C12_limit), pi only uses y^2 <= x. int256_t version: proved under the phi_sum hypothesis of C17. The c-th prime has to fit int32_t. The low 128 bits are right for all x < 2^124 with y^2 <= x (C12_low128)."
  },
  {
   "property": "C13",
   "status": "proved",
   "theorems": [
    "PS.C13_S2_trivial",
    "PS.C13_throws"
   ],
   "note": ""
  },
  {
   "property": "C14",
   "status": "proved",
   "theorems": [
    "PS.C14_S2_easy",
    "PS.C14_S2_easy_libdivide"
   ],
   "note": ""
  },
  {
   "property": "C15",
   "status": "partial",
   "theorems": [
    "PS.C15_low64",
    "PS.C15_S2_hard_partial",
    "PS.C15_fits",
    "PS.C15_all_leaves"
   ],
   "note": "Proved for every thread count, sequence of measured times (any double values), schedule and interleaving when x < 2^103 and x/y + 129 < 2^59. For larger x/y (accepted by pi up to about 2^61) the 64-bit sums of BitSieve can overflow (C29_overflow), and from 2^60 on they always do after sieving with the first primes (C29_wraps). The low 64 bits are right even there (C15_low64)."
  },
  {
   "property": "C16",
   "status": "proved",
   "theorems": [
    "PS.C16_partition",
    "PS.C16_exactly_one",
    "PS.C16_only_leaves"
   ],
   "note": ""
  },
  {
   "property": "C17",
   "status": "partial",
   "theorems": [
    "PS.C17_low128",
    "PS.C17_phi_sum64_partial",
    "PS.C17_phi_sum_partial",
    "PS.C17_phi_sum_below_partial",
    "PS.C17_phi_sum_limit",
    "PS.C17_phi_sum_counterexample",
    "PS.C17_exact_partial"
   ],
   "note": "phi_sum on int64_t proved whenever the a-th prime fits int32_t; it fails beyond that (C17_phi_sum_limit). phi_sum on int128_t proved if moreover no intermediate sum lies in the interval on which int256_t::operator* is wrong (always for x < 5.2*10^19); without that hypothesis the claim is false (C17_phi_sum_counterexample). For a = 6 and x < 7.8*10^20 the value is given for every x, with 32 wrong ones (C17_exact_partial). The low 128 bits are right for all x < 2^127 (C17_low128)."
  },
  {
   "property": "C18",
   "status": "partial",
   "theorems": [
    "PS.C18_phi_partial",
    "PS.C18_phi_limit",
    "PS.C18_cache"
   ],
   "note": "Proved for all x, a such that the a-th prime fits int32_t or a > x; false beyond that because the primes are kept as int32_t (C18_phi_limit)."
  },
  {
   "property": "C19",
   "status": "partial",
   "theorems": [
    "PS.C19_pi_legendre_partial",
    "PS.C19_pi_legendre_limit",
    "PS.C19_iterators"
   ],
   "note": "Proved for x < 2^62; false from 2147483659^2 on (C19_pi_legendre_limit)."
  },
  {
   "property": "C20",
   "status": "proved",
   "theorems": [
    "PS.C20_phi_tiny",
    "PS.C20_get_c"
   ],
   "note": ""
  },
  {
   "property": "C21",
   "status": "proved",
   "theorems": [
    "PS.C21_pi_table",
    "PS.C21_size",
    "PS.C21_iterators"
   ],
   "note": ""
  },
  {
   "property": "C22",
   "status": "proved",
   "theorems": [
    "PS.C22_moebius"
   ],
   "note": ""
  },
  {
   "property": "C23",
   "status": "proved",
   "theorems": [
    "PS.C23_lpf",
    "PS.C23_lpf_one"
   ],
   "note": ""
  },
  {
   "property": "C24",
   "status": "proved",
   "theorems": [
    "PS.C24_pi"
   ],
   "note": ""
  },
  {
   "property": "C25",
   "status": "proved",
   "theorems": [
    "PS.C25_prime_sums",
    "PS.C25_prime_sums_pi",
    "PS.C25_bound"
   ],
   "note": ""
  },
  {
   "property": "C26",
   "status": "proved",
   "theorems": [
    "PS.C26_factor_table",
    "PS.C26_deterministic",
    "PS.C26_limit"
   ],
   "note": "The int64_t variables of the construction are modelled; stated for y < 2^59, which covers every y the program uses (a table for such a y would not fit in memory)."
  },
  {
   "property": "C27",
   "status": "proved",
   "theorems": [
    "PS.C27_round_down",
    "PS.C27_index_number",
    "PS.C27_galois",
    "PS.C27_surjective"
   ],
   "note": ""
  },
  {
   "property": "C28",
   "status": "proved",
   "theorems": [
    "PS.C28_pre_sieve",
    "PS.C28_constructor",
    "PS.C28_unset"
   ],
   "note": ""
  },
  {
   "property": "C29",
   "status": "proved",
   "theorems": [
    "PS.C29_sum",
    "PS.C29_sum_sieved",
    "PS.C29_wraps",
    "PS.C29_sum6",
    "PS.C29_sum6_zero",
    "PS.C29_overflow"
   ],
   "note": ""
  },
  {
   "property": "C30",
   "status": "proved",
   "theorems": [
    "PS.C30_tree"
   ],
   "note": ""
  },
  {
   "property": "C31",
   "status": "proved",
   "theorems": [
    "PS.C31_wheel",
    "PS.C31_constructor"
   ],
   "note": ""
  },
  {
   "property": "C32",
   "status": "proved",
   "theorems": [
    "PS.C32_isqrt",
    "PS.C32_isqrt_no_overflow",
    "PS.C32_iroot"
   ],
   "note": ""
  },
  {
   "property": "C33",
   "status": "proved",
   "theorems": [
    "PS.I256.C33_add",
    "PS.I256.C33_sub",
    "PS.I256.C33_neg",
    "PS.I256.C33_not",
    "PS.I256.C33_inc",
    "PS.I256.C33_dec",
    "PS.I256.C33_add_exact",
    "PS.I256.C33_sub_exact",
    "PS.I256.C33_ofInt",
    "PS.I256.C33_zero"
   ],
   "note": ""
  },
  {
   "property": "C34",
   "status": "partial",
   "theorems": [
    "PS.I256.C34_mul_iff",
    "PS.I256.C34_mul_partial",
    "PS.I256.C34_mul_nonneg",
    "PS.I256.C34_mul_counterexample",
    "PS.I256.C34_mul_mod128"
   ],
   "note": "The unrestricted claim is false: operator* is wrong exactly on the operand pairs MulBad (C34_mul_iff, C34_mul_counterexample). Proved exact everywhere else."
  },
  {
   "property": "C35",
   "status": "partial",
   "theorems": [
    "PS.I256.C35_div_partial",
    "PS.I256.C35_mod_partial",
    "PS.I256.C35_div_zero",
    "PS.I256.C35_div_counterexample"
   ],
   "note": "False/undefined when an operand is -2^255 (C35_div_counterexample); proved for all other operands."
  },
  {
   "property": "C36",
   "status": "proved",
   "theorems": [
    "PS.I256.C36_lt",
    "PS.I256.C36_le",
    "PS.I256.C36_gt",
    "PS.I256.C36_ge",
    "PS.I256.C36_eq",
    "PS.I256.C36_ne",
    "PS.I256.C36_limits"
   ],
   "note": ""
  },
  {
   "property": "C37",
   "status": "partial",
   "theorems": [
    "PS.I256.C37_shl",
    "PS.I256.C37_shr",
    "PS.I256.C37_shr_nonneg",
    "PS.I256.C37_shift_undefined",
    "PS.I256.C37_toUnsigned",
    "PS.I256.C37_toSigned",
    "PS.I256.C37_toSigned_counterexample",
    "PS.I256.C37_and",
    "PS.I256.C37_or",
    "PS.I256.C37_xor",
    "PS.I256.C37_bits"
   ],
   "note": "Shifts by 1..255 proved; >> is logical; shifts by 0 or >= 256 are undefined (C37_shift_undefined). Signed conversions proved except the case the code leaves undefined (C37_toSigned_counterexample)."
  },
  {
   "property": "C38",
   "status": "partial",
   "theorems": [
    "PS.I256.C38_print256_partial",
    "PS.I256.C38_print_counterexample",
    "PS.I256.C38_printU128",
    "PS.I256.C38_printS128_partial",
    "PS.I256.C38_printS128_counterexample",
    "PS.I256.C38_read_back"
   ],
   "note": "Proved except for the minimum values, where the code prints -0 (int256_t) or overflows (int128_t)."
  },
  {
   "property": "C39",
   "status": "proved",
   "theorems": [
    "PS.Calc.C39_eval",
    "PS.Calc.C39_unambiguous"
   ],
   "note": ""
  },
  {
   "property": "C40",
   "status": "proved",
   "theorems": [
    "PS.Calc.C40_sound",
    "PS.Calc.C40_reject",
    "PS.Calc.C40_overflow_first",
    "PS.Calc.C40_div_zero",
    "PS.Calc.C40_total"
   ],
   "note": ""
  },
  {
   "property": "C41",
   "status": "proved",
   "theorems": [
    "PS.Main.C41_starts",
    "PS.Main.C41_unknown",
    "PS.Main.C41_stops",
    "PS.Main.C41_bad_value",
    "PS.Main.C41_not_one",
    "PS.Main.C41_total",
    "PS.Main.C41_exit"
   ],
   "note": "Iff characterisation of the accepted command lines, for every argument vector. The conversion of a string to double (--alpha) is a parameter of the model."
  },
  {
   "property": "C42",
   "status": "proved",
   "theorems": [
    "PS.Main.C42_rejects",
    "PS.Main.C42_truncates",
    "PS.Main.C42_counterexample"
   ],
   "note": "Every x >= 2^63 is rejected. x < -2^63 is truncated to 64 bits instead (C42_truncates, C42_counterexample)."
  },
  {
   "property": "C43",
   "status": "proved",
   "theorems": [
    "PS.C43_throws",
    "PS.C43_limit",
    "PS.C43_z"
   ],
   "note": "get_max_x is modelled with double arithmetic; pow of the C library is assumed to be accurate to one part in a thousand. For every x that fits int128_t."
  },
  {
   "property": "C44",
   "status": "proved",
   "theorems": [
    "PS.C44_set_get",
    "PS.C44_history",
    "PS.C44_ideal"
   ],
   "note": ""
  },
  {
   "property": "C45",
   "status": "proved",
   "theorems": [
    "PS.C45_update",
    "PS.C45_init",
    "PS.C45_partition"
   ],
   "note": ""
  },
  {
   "property": "C46",
   "status": "proved",
   "theorems": [
    "PS.C46_same",
    "PS.C46_wide"
   ],
   "note": ""
  },
  {
   "property": "C47",
   "status": "proved",
   "theorems": [
    "PS.C47_libdivide",
    "PS.C47_shift_defined",
    "PS.C47_rejects"
   ],
   "note": ""
  },
  {
   "property": "C48",
   "status": "proved",
   "theorems": [
    "PS.C48_next",
    "PS.C48_prev"
   ],
   "note": ""
  },
  {
   "property": "C49",
   "status": "proved",
   "theorems": [
    "PS.C49_popcnt"
   ],
   "note": ""
  },
  {
   "property": "C50",
   "status": "proved",
   "theorems": [
    "PS.C50_pi_bsearch"
   ],
   "note": ""
  },
  {
   "property": "C51",
   "status": "partial",
   "theorems": [
    "PS.C51_pi_partial",
    "PS.C51_pi_default",
    "PS.C51_lmo_partial",
    "PS.C51_lmo_below",
    "PS.C51_lmo_default",
    "PS.Main.C51_main_partial",
    "PS.Main.C51_main_default"
   ],
   "note": "pi and its parts: every x < 2^103 and every x beyond the limit, for every tuning factor, on up to 2^26 threads (on any number of threads within reach of the sieve); with the default tuning factor this is every 128-bit integer (C51_pi_default, C51_main_default). Includes the x for which the value is wrong. LMO algorithms: every 64-bit x if y < 2^31, which holds for x < 2^62 and for the default tuning factor. Missing: accepted x >= 2^103 and, for LMO, x >= 2^62, both only with a tuning factor given by the user."
  },
  {
   "property": "C52",
   "status": "partial",
   "theorems": [
    "PS.C52_pi_partial",
    "PS.C52_pi_default",
    "PS.C52_lmo_partial",
    "PS.C52_lmo_below",
    "PS.C52_lmo_default",
    "PS.C52_print",
    "PS.Main.C52_main_partial",
    "PS.Main.C52_main_default"
   ],
   "note": "As C51; printing for every value."
  },
  {
   "property": "C53",
   "status": "partial",
   "theorems": [
    "PS.Main.C53_pi_partial",
    "PS.Main.C53_too_large",
    "PS.Main.C53_lmo_partial",
    "PS.Main.C53_lmo64_partial",
    "PS.Main.C53_small",
    "PS.Main.C53_exact_partial",
    "PS.Main.C53_powers_of_ten"
   ],
   "note": "pi: x < 7.8*10^20 including the 32 numbers for which the result is wrong (C53_exact_partial), and under NoWindow for x < 2^88, with the default tuning factor for x <= 5*10^29 (false without it, C01); --lmo1: every x < 2^63; --lmo, --lmo_parallel1: x < 2^63 and y < 2^31 (C10); --lmo2 to --lmo5: if the sum fits in 63 bits and int64_t wraps around."
  },
  {
   "property": "C54",
   "status": "partial",
   "theorems": [
    "PS.Main.C54_low64",
    "PS.Main.C54_part_partial",
    "PS.Main.C54_formula"
   ],
   "note": "Every x up to the limit and < 2^103, for S2_hard if x/y + 129 < 2^59; for S1 beyond 5.2*10^19 under NoWindow (there S1 is wrong for some x). The low 64 bits of the number printed are right without these two conditions (C54_low64)."
  },
  {
   "property": "C55",
   "status": "partial",
   "theorems": [
    "PS.Main.C55_exact_partial",
    "PS.Main.C55_small",
    "PS.Main.C55_too_large",
    "PS.Main.C55_pi_string_partial",
    "PS.Main.C55_rejects"
   ],
   "note": "v < 5.2*10^19, and under NoWindow for v < 2^88, with the default tuning factor for v <= 5*10^29; an intermediate overflow of the calculator is undefined behaviour."
  },
  {
   "property": "C56",
   "status": "proved",
   "theorems": [
    "PS.Main.C56_status_precision_set",
    "PS.Main.C56_status_precision_default",
    "PS.Main.C56_alpha_set",
    "PS.Main.C56_alpha_range",
    "PS.Main.C56_alpha_default",
    "PS.Main.C56_y"
   ],
   "note": "The default formulas are modelled with double arithmetic; log and pow of the C library are assumed to be of the right size (Lib.OK)."
  },
  {
   "property": "C57",
   "status": "proved",
   "theorems": [
    "PS.Psv.Mem.C57_iterator_pool",
    "PS.Psv.C57_iterator",
    "PS.Psv.C57_answers_unique"
   ],
   "note": "For every result of the functions std::sqrt, std::log and of every description of the CPU. The theorems named _pool are for the code with the memory pool, where std::bad_alloc is possible if new fails."
  },
  {
   "property": "C58",
   "status": "proved",
   "theorems": [
    "PS.Psv.Mem.C58_loop_pool",
    "PS.Psv.C58_loop",
    "PS.Psv.C58_next",
    "PS.Psv.C58_prev",
    "PS.Psv.C58_generate_primes",
    "PS.Psv.C58_generate_n_primes"
   ],
   "note": "As C57. The cast to the element type of the vector is not modelled."
  },
  {
   "property": "C59",
   "status": "proved",
   "theorems": [
    "PS.Psv.Mem.C59_store_primes_pool",
    "PS.Psv.Mem.C59_store_n_primes_pool",
    "PS.Psv.C59_store_primes",
    "PS.Psv.C59_store_n_primes"
   ],
   "note": "As C57. store_n_primes throws although the n primes exist if the prime after them is not below 2^64."
  },
  {
   "property": "C60",
   "status": "proved",
   "theorems": [
    "PS.Psv.Mem.C60_fill_pool",
    "PS.Psv.C60_fill",
    "PS.Psv.C60_fill_first"
   ],
   "note": "As C57."
  },
  {
   "property": "C61",
   "status": "proved",
   "theorems": [
    "PS.Psv.C61_next_prime"
   ],
   "note": ""
  },
  {
   "property": "C62",
   "status": "proved",
   "theorems": [
    "PS.C62_long_division",
    "PS.C62_high_product",
    "PS.C62_leading_zeros",
    "PS.C62_libdivide"
   ],
   "note": ""
  },
  {
   "property": "C63",
   "status": "proved",
   "theorems": [
    "PS.C63_self_test",
    "PS.C63_detects",
    "PS.C63_result"
   ],
   "note": ""
  },
  {
   "property": "C64",
   "status": "proved",
   "theorems": [
    "PS.C64_S2_easy",
    "PS.C64_S2_easy_libdivide",
    "PS.C64_S1",
    "PS.C64_P2",
    "PS.C64_S2_hard"
   ],
   "note": ""
  },
  {
   "property": "C65",
   "status": "proved",
   "theorems": [
    "PS.Psv.Mem.C65_medium",
    "PS.Psv.Mem.C65_big"
   ],
   "note": ""
  },
  {
   "property": "C66",
   "status": "proved",
   "theorems": [
    "PS.Psv.Mem.C66_medium",
    "PS.Psv.Mem.C66_big"
   ],
   "note": ""
  },
  {
   "property": "C67",
   "status": "proved",
   "theorems": [
    "PS.Psv.C67_sieve_size",
    "PS.Psv.C67_set",
    "PS.Psv.C67_limits"
   ],
   "note": ""
  },
  {
   "property": "C68",
   "status": "proved",
   "theorems": [
    "PS.Main.C68_accepted",
    "PS.Main.C68_defined",
    "PS.Main.C68_nan"
   ],
   "note": "NaN set through the C++ function set_alpha is the exception (C68_nan); C68_accepted shows that the command line cannot produce it if the stream operator does not."
  },
  {
   "property": "C69",
   "status": "proved",
   "theorems": [
    "PS.Print.C69_p2",
    "PS.Print.C69_easy",
    "PS.Print.C69_easy_calls",
    "PS.Print.C69_end",
    "PS.Print.C69_increasing",
    "PS.Print.C69_race",
    "PS.Print.C69_shown"
   ],
   "note": "pow of the C library is assumed to be decreasing in the exponent for bases below 1 (Skew). C69_race is the exception with several threads. A double is printed as the GNU C library does, rounded to nearest."
  },
  {
   "property": "C70",
   "status": "partial",
   "theorems": [
    "PS.Print.C70_exact_partial",
    "PS.Print.C70_result",
    "PS.Print.C70_named",
    "PS.Print.C70_error",
    "PS.Print.C70_exit",
    "PS.Print.C70_pi_partial",
    "PS.Print.C70_too_large"
   ],
   "note": "C70_result, C70_named, C70_error: for every accepted command line, relative to the result of main; C70_pi_partial combines it with C53 and has the same limits. Failure to allocate memory and failure of the output stream are not modelled."
  },
  {
   "property": "C71",
   "status": "proved",
   "theorems": [
    "PS.Print.C71_documented",
    "PS.Print.C71_unknown",
    "PS.Print.C71_not_one",
    "PS.Print.C71_asked",
    "PS.Print.C71_test",
    "PS.Print.C71_test_fails",
    "PS.Print.C71_else",
    "PS.Print.C71_rejected",
    "PS.Print.C71_limit",
    "PS.Print.C71_alpha",
    "PS.Print.C71_examples"
   ],
   "note": "The promise of the help screen is refuted (C71_rejected), with what holds instead (C71_limit, C71_alpha). Assumed: log is accurate to 10^-6 and pow(v, 2), pow(v, 3) to 10^-3 (Lib.Accurate). C71_test rests on C63."
  },
  {
   "property": "C72",
   "status": "proved",
   "theorems": [
    "PS.C72_low64",
    "PS.C72_low64_default",
    "PS.C72_low128",
    "PS.Main.C72_main",
    "PS.Main.C72_main_default",
    "PS.Main.C72_string"
   ],
   "note": "For accepted x < 2^103; with the default tuning factor these are all accepted x (C72_low64_default, C72_main_default)."
  },
  {
   "property": "C73",
   "status": "partial",
   "theorems": [
    "PS.Print.C73_part_partial",
    "PS.Print.C73_pi_partial",
    "PS.Print.C73_lmo_partial",
    "PS.Print.C73_lmo234_partial",
    "PS.Print.C73_lmo5_partial",
    "PS.Print.C73_lmo1",
    "PS.Print.C73_small"
   ],
   "note": "C73_pi_partial, C73_part_partial, C73_lmo_partial, C73_lmo234_partial, C73_lmo5_partial: within the ranges of C53 and C54, for x >= 2 (x >= 1 for the parts; smaller x: C73_small). For S2_easy only the bounds of the percentages are stated (their order depends on the threads, C69). The elapsed times are opaque."
  },
  {
   "property": "C74",
   "status": "partial",
   "theorems": [
    "PS.C74_exact_partial",
    "PS.C74_pi_below",
    "PS.C74_pi_partial",
    "PS.C74_counterexample",
    "PS.C74_throws",
    "PS.Main.C74_cases",
    "PS.Main.C74_program_partial",
    "PS.Main.C74_same"
   ],
   "note": "C74_pi_below is complete; C74_pi_partial and C74_program_partial miss what C01 and C53 miss, C74_cases and C74_same need x < 2^106 or x above the limit. A failure of new in a thread of a parallel region is the outcome `terminated` (finding 22)."
  },
  {
   "property": "C75",
   "status": "proved",
   "theorems": [
    "PS.Psv.Mem.C75_medium",
    "PS.Psv.Mem.C75_big"
   ],
   "note": ""
  },
  {
   "property": "C76",
   "status": "proved",
   "theorems": [
    "PS.C76_min",
    "PS.C76_min3",
    "PS.C76_max",
    "PS.C76_max3",
    "PS.C76_needed"
   ],
   "note": ""
  }
 ]
}