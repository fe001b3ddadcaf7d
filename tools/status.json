{
 "C34": {
  "status": "partial",
  "note": "The unrestricted claim is false: operator* is wrong exactly on the operand pairs MulBad (C34_mul_iff, C34_mul_counterexample). Proved exact everywhere else."
 },
 "C35": {
  "status": "partial",
  "note": "False/undefined when an operand is -2^255 (C35_div_counterexample); proved for all other operands."
 },
 "C37": {
  "status": "partial",
  "note": "Shifts by 1..255 proved; >> is logical; shifts by 0 or >= 256 are undefined (C37_shift_undefined). Signed conversions proved except the case the code leaves undefined (C37_toSigned_counterexample)."
 },
 "C38": {
  "status": "partial",
  "note": "Proved except for the minimum values, where the code prints -0 (int256_t) or overflows (int128_t)."
 },
 "C17": {
  "status": "partial",
  "note": "phi_sum on int64_t proved whenever the a-th prime fits int32_t; it fails beyond that (C17_phi_sum_limit). phi_sum on int128_t proved if moreover no intermediate sum lies in the interval on which int256_t::operator* is wrong (always for x < 5.2*10^19); without that hypothesis the claim is false (C17_phi_sum_counterexample). For a = 6 and x < 7.8*10^20 the value is given for every x, with 32 wrong ones (C17_exact_partial). The low 128 bits are right for all x < 2^127 (C17_low128)."
 },
 "C12": {
  "status": "partial",
  "note": "int128_t version: proved for all x < 2^63, y^2 < 2^63 with c >= 3 or y < 8 (always the case for c = get_c(y)), and for any c when x < 2^60 or the sum fits; for larger y an int64_t product overflows (C12_limit), pi only uses y^2 <= x. int256_t version: proved under the phi_sum hypothesis of C17. The c-th prime has to fit int32_t. The low 128 bits are right for all x < 2^124 with y^2 <= x (C12_low128)."
 },
 "C15": {
  "status": "partial",
  "note": "Proved for every thread count, sequence of measured times (any double values), schedule and interleaving when x < 2^103 and x/y + 129 < 2^59. For larger x/y (accepted by pi up to about 2^61) the 64-bit sums of BitSieve can overflow (C29_overflow), and from 2^60 on they always do after sieving with the first primes (C29_wraps). The low 64 bits are right even there (C15_low64)."
 },
 "C01": {
  "status": "partial",
  "note": "The unrestricted claim is false: C01_counterexample proves that pi(52175271301331128848) is 2^128 too large for every alpha, thread count, schedule and timing. Proved for every x below that (C01_pi_below). Below 7.8*10^20 exactly 32 results are wrong, and the value returned is given for each (C01_exact_partial). Beyond, proved for every x none of whose quotients is one of seven numbers (C01_pi_exceptional_partial), hence for all but one x in 3*10^8 up to 5*10^29 (C01_almost_all_partial) and for the powers of ten and two up to 10^29 and 2^98 (C01_powers_of_ten, C01_powers_of_two), given x < 2^103 and x/y + 129 < 2^59 (automatic for x < 2^88, and for x <= 5*10^29 with the default tuning factor: C01_pi_reach_partial)."
 },
 "C02": {
  "status": "partial",
  "note": "Proved for x < 2^103 and x/y + 129 < 2^59, including the x for which the value is wrong. Beyond that the sums of BitSieve can overflow while those of the binary indexed tree do not."
 },
 "C03": {
  "status": "partial",
  "note": "Proved for x < 5.2*10^19, and under NoWindow for x < 2^88, with the default tuning factor for x <= 5*10^29. The range of y, computed with double arithmetic, is proved for every x < 2^106."
 },
 "C04": {
  "status": "partial",
  "note": "x < 2 gives 0: proved for all integers. Monotone and nonnegative: proved for x < 5.2*10^19; beyond that it is false (C04_counterexample). The command line option --lmo* truncates x < -2^63 to 64 bits, so it can print a nonzero result there (C42_counterexample)."
 },
 "C06": {
  "status": "partial",
  "note": "Proved for every x whose sum of primes is < 2^63 if int64_t arithmetic wraps around. C++ leaves overflow undefined: no overflow is proved for x < 2^29; near the end of the range (x about 2*10^10, where S2 is about 1.2 times the sum of the primes) S2_result does exceed 63 bits."
 },
 "C07": {
  "status": "partial",
  "note": "Proved for every x whose sum of primes is < 2^63 if int64_t arithmetic wraps around. C++ leaves overflow undefined: no overflow is proved for x < 2^29; near the end of the range (x about 2*10^10, where S2 is about 1.2 times the sum of the primes) S2_result does exceed 63 bits."
 },
 "C09": {
  "status": "partial",
  "note": "Proved for every x whose sum of primes is < 2^63 if int64_t arithmetic wraps around. C++ leaves overflow undefined: no overflow is proved for x < 2^29; near the end of the range (x about 2*10^10, where S2 is about 1.2 times the sum of the primes) S2_result does exceed 63 bits."
 },
 "C08": {
  "status": "proved",
  "note": "Every x whose sum of primes is < 2^63; C08_no_overflow shows that the int128_t sums do not overflow."
 },
 "C05": {
  "status": "proved",
  "note": "Every x < 5.2*10^19, which includes all 64-bit x; beyond that the claim is false (C05_counterexample)."
 },
 "C41": {
  "status": "proved",
  "note": "Iff characterisation of the accepted command lines, for every argument vector. The conversion of a string to double (--alpha) is a parameter of the model."
 },
 "C42": {
  "status": "proved",
  "note": "Every x >= 2^63 is rejected. x < -2^63 is truncated to 64 bits instead (C42_truncates, C42_counterexample)."
 },
 "C53": {
  "status": "partial",
  "note": "pi: x < 7.8*10^20 including the 32 numbers for which the result is wrong (C53_exact_partial), and under NoWindow for x < 2^88, with the default tuning factor for x <= 5*10^29 (false without it, C01); --lmo1: every x < 2^63; --lmo, --lmo_parallel1: x < 2^63 and y < 2^31 (C10); --lmo2 to --lmo5: if the sum fits in 63 bits and int64_t wraps around."
 },
 "C54": {
  "status": "partial",
  "note": "Every x up to the limit and < 2^103, for S2_hard if x/y + 129 < 2^59; for S1 beyond 5.2*10^19 under NoWindow (there S1 is wrong for some x). The low 64 bits of the number printed are right without these two conditions (C54_low64)."
 },
 "C55": {
  "status": "partial",
  "note": "v < 5.2*10^19, and under NoWindow for v < 2^88, with the default tuning factor for v <= 5*10^29; an intermediate overflow of the calculator is undefined behaviour."
 },
 "C51": {
  "status": "partial",
  "note": "pi and its parts: every x < 2^103 and every x beyond the limit, for every tuning factor, on up to 2^26 threads (on any number of threads within reach of the sieve); with the default tuning factor this is every 128-bit integer (C51_pi_default, C51_main_default). Includes the x for which the value is wrong. LMO algorithms: every 64-bit x if y < 2^31, which holds for x < 2^62 and for the default tuning factor. Missing: accepted x >= 2^103 and, for LMO, x >= 2^62, both only with a tuning factor given by the user."
 },
 "C52": {
  "status": "partial",
  "note": "As C51; printing for every value."
 },
 "C56": {
  "status": "proved",
  "note": "The default formulas are modelled with double arithmetic; log and pow of the C library are assumed to be of the right size (Lib.OK)."
 },
 "C57": {
  "status": "proved",
  "note": "For every result of the functions std::sqrt, std::log and of every description of the CPU. The theorems named _pool are for the code with the memory pool, where std::bad_alloc is possible if new fails."
 },
 "C58": {
  "status": "proved",
  "note": "As C57. The cast to the element type of the vector is not modelled."
 },
 "C59": {
  "status": "proved",
  "note": "As C57. store_n_primes throws although the n primes exist if the prime after them is not below 2^64."
 },
 "C60": {
  "status": "proved",
  "note": "As C57."
 },
 "C61": {
  "status": "proved",
  "note": ""
 },
 "C18": {
  "status": "partial",
  "note": "Proved for all x, a such that the a-th prime fits int32_t or a > x; false beyond that because the primes are kept as int32_t (C18_phi_limit)."
 },
 "C19": {
  "status": "partial",
  "note": "Proved for x < 2^62; false from 2147483659^2 on (C19_pi_legendre_limit)."
 },
 "C10": {
  "status": "partial",
  "note": "Proved for x < 2^62, for every 64-bit x with the default tuning factor (C10_default), and for x < 2^63 if y < 2^31; false for y >= 2147483659, which large tuning factors produce (C10_limit)."
 },
 "C26": {
  "status": "proved",
  "note": "The int64_t variables of the construction are modelled; stated for y < 2^59, which covers every y the program uses (a table for such a y would not fit in memory)."
 },
 "C43": {
  "status": "proved",
  "note": "get_max_x is modelled with double arithmetic; pow of the C library is assumed to be accurate to one part in a thousand. For every x that fits int128_t."
 },
 "C68": {
  "status": "proved",
  "note": "NaN set through the C++ function set_alpha is the exception (C68_nan); C68_accepted shows that the command line cannot produce it if the stream operator does not."
 },
 "C69": {
  "status": "proved",
  "note": "pow of the C library is assumed to be decreasing in the exponent for bases below 1 (Skew). C69_race is the exception with several threads. A double is printed as the GNU C library does, rounded to nearest."
 },
 "C70": {
  "status": "partial",
  "note": "C70_result, C70_named, C70_error: for every accepted command line, relative to the result of main; C70_pi_partial combines it with C53 and has the same limits. Failure to allocate memory and failure of the output stream are not modelled."
 },
 "C71": {
  "status": "proved",
  "note": "The promise of the help screen is refuted (C71_rejected), with what holds instead (C71_limit, C71_alpha). Assumed: log is accurate to 10^-6 and pow(v, 2), pow(v, 3) to 10^-3 (Lib.Accurate). C71_test rests on C63."
 },
 "C72": {
  "status": "proved",
  "note": "For accepted x < 2^103; with the default tuning factor these are all accepted x (C72_low64_default, C72_main_default)."
 },
 "C73": {
  "status": "partial",
  "note": "C73_pi_partial, C73_part_partial, C73_lmo_partial, C73_lmo234_partial, C73_lmo5_partial: within the ranges of C53 and C54, for x >= 2 (x >= 1 for the parts; smaller x: C73_small). For S2_easy only the bounds of the percentages are stated (their order depends on the threads, C69). The elapsed times are opaque."
 },
 "C74": {
  "status": "partial",
  "note": "C74_pi_below is complete; C74_pi_partial and C74_program_partial miss what C01 and C53 miss, C74_cases and C74_same need x < 2^106 or x above the limit. A failure of new in a thread of a parallel region is the outcome `terminated` (finding 22)."
 }
}