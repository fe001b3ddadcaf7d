{"id": "C01", "title": "primesum x prints the sum of the primes <= x", "statement": "pi(x) (the default Deleglise-Rivat algorithm) returns exactly the sum of all primes p <= x, for every x the program accepts.", "quantifier": "every x in 0 .. get_max_x, every tuning factor alpha, every thread count, every load-balancing history", "why_tests_cant": "x ranges over up to 10^31 values and each run also depends on timing; the self test only tries x < 10000 plus ~900 random points below 10^10", "anchors": ["src/deleglise-rivat/pi_deleglise_rivat_parallel1.cpp: pi_deleglise_rivat_parallel1, S2", "src/primesum.cpp: pi"]}
{"id": "C02", "title": "The result does not depend on threads or scheduling", "statement": "For fixed x the value returned is the same for every number of threads, every assignment of loop iterations to threads, every order in which partial results are reduced, and every timing the load balancers observe.", "quantifier": "every thread count, every reduction order, every sequence of interval lengths chosen by the load balancers", "why_tests_cant": "interleavings and timings are unbounded and not controllable from a unit test", "anchors": ["src/deleglise-rivat/S2_hard.cpp: S2_hard_OpenMP_master", "src/P2.cpp: P2_OpenMP_master", "src/S1.cpp", "src/S2LoadBalancer.cpp"]}
{"id": "C03", "title": "The result does not depend on the tuning factor alpha", "statement": "For fixed x, every admissible y = x^(1/3) * alpha with 1 <= alpha <= x^(1/6) (option --alpha) gives the same returned sum.", "quantifier": "every x, every y between iroot<3>(x) and iroot<3>(x)*iroot<6>(x)", "why_tests_cant": "alpha is a real number supplied by the user; tests only use the default", "anchors": ["src/primesum.cpp: get_alpha_deleglise_rivat, set_alpha", "src/deleglise-rivat/pi_deleglise_rivat_parallel1.cpp"]}
{"id": "C04", "title": "x < 2 gives 0 and every positive x gives a non-negative answer", "statement": "Every prime summing entry point returns 0 for x < 2 (also for negative x), and the answer is monotone in x.", "quantifier": "every integer x, every algorithm", "why_tests_cant": "all negative x and all pairs x <= x'", "anchors": ["src/lmo/pi_lmo1.cpp", "src/deleglise-rivat/pi_deleglise_rivat_parallel1.cpp"]}
{"id": "C05", "title": "--lmo1 computes the sum of the primes <= x", "statement": "pi_lmo1(x) equals the sum of the primes <= x.", "quantifier": "every 64-bit x >= 0 (main passes 64-bit x)", "why_tests_cant": "unbounded x", "anchors": ["src/lmo/pi_lmo1.cpp: pi_lmo1"]}
{"id": "C06", "title": "--lmo2 computes the sum of the primes <= x", "statement": "pi_lmo2(x) equals the sum of the primes <= x whenever that sum fits in 63 bits, for every admissible y.", "quantifier": "every x >= 0 whose sum of primes is < 2^63, every admissible y", "why_tests_cant": "unbounded x", "anchors": ["src/lmo/pi_lmo2.cpp: pi_lmo2, S2"]}
{"id": "C07", "title": "--lmo3 computes the sum of the primes <= x", "statement": "pi_lmo3(x) (segmented sieve) equals the sum of the primes <= x whenever that sum fits in 63 bits, for every admissible y.", "quantifier": "every x >= 0 whose sum of primes is < 2^63, every admissible y", "why_tests_cant": "unbounded x", "anchors": ["src/lmo/pi_lmo3.cpp: pi_lmo3, S2, cross_off"]}
{"id": "C08", "title": "--lmo4 computes the sum of the primes <= x", "statement": "pi_lmo4(x) (segmented sieve with binary indexed tree) equals the sum of the primes <= x whenever that sum fits in 63 bits, for every admissible y.", "quantifier": "every x >= 0 whose sum of primes is < 2^63, every admissible y", "why_tests_cant": "unbounded x", "anchors": ["src/lmo/pi_lmo4.cpp: pi_lmo4, S2, cross_off"]}
{"id": "C09", "title": "--lmo5 computes the sum of the primes <= x", "statement": "pi_lmo5(x) (bit sieve and wheel) equals the sum of the primes <= x whenever that sum fits in 63 bits, for every admissible y.", "quantifier": "every x >= 0 whose sum of primes is < 2^63, every admissible y", "why_tests_cant": "unbounded x", "anchors": ["src/lmo/pi_lmo5.cpp: pi_lmo5, S2, cross_off"]}
{"id": "C10", "title": "--lmo / --lmo_parallel1 computes the sum of the primes <= x", "statement": "pi_lmo_parallel1(x) equals the sum of the primes <= x for every thread count, every load-balancing history and every admissible y.", "quantifier": "every 64-bit x >= 0 (main passes 64-bit x), every y, threads, interval history", "why_tests_cant": "unbounded x and histories", "anchors": ["src/lmo/pi_lmo_parallel1.cpp: pi_lmo_parallel1, S2, S2_thread"]}
{"id": "C11", "title": "P2(x, y) is the second partial sieve function", "statement": "P2(x, y, threads) returns the sum of the numbers n <= x with exactly two prime factors (with multiplicity), both greater than y.", "quantifier": "every x < 2^124 and y < 2^62 with x / max(y, 1) <= 2^62 (pi accepts only x <= 10^31 and chooses y that large), every thread count and every sequence of thread distances", "why_tests_cant": "unbounded x; the distance sequence depends on wall clock time", "anchors": ["src/P2.cpp: P2_OpenMP_master, P2_OpenMP_thread, balanceLoad"]}
{"id": "C12", "title": "S1(x, y) is the contribution of the ordinary leaves", "statement": "S1(x, y, c, threads) returns the sum over squarefree n <= y with no prime factor among the first c primes of mu(n) * n * phi_sum(x / n, c).", "quantifier": "every x, y, c, thread count, reduction order", "why_tests_cant": "unbounded x, y", "anchors": ["src/S1.cpp: S1_OpenMP_master, S1_OpenMP_thread"]}
{"id": "C13", "title": "S2_trivial(x, y) is the contribution of the trivial special leaves", "statement": "S2_trivial returns the sum of p*q over primes max(p_c, sqrt z) < p < q <= y with p*p*q > x.", "quantifier": "every x and every y < 2^62 with z = x / y < 2^63, every c <= 9, every thread count", "why_tests_cant": "unbounded x, y", "anchors": ["src/deleglise-rivat/S2_trivial.cpp: S2_trivial_OpenMP"]}
{"id": "C14", "title": "S2_easy(x, y) is the contribution of the easy special leaves", "statement": "S2_easy returns the sum over prime pairs p < q <= y with p > sqrt(y), b = pi(p) > c, p <= x^(1/3), p*q > z, p*q > y and p*p*q <= x of p * q * phi_sum(x/(p q), pi(p)-1).", "quantifier": "every x, y, c, thread count, order of loop iterations", "why_tests_cant": "unbounded x, y", "anchors": ["src/deleglise-rivat/S2_easy.cpp: S2_easy_OpenMP", "src/deleglise-rivat/S2_easy_libdivide.cpp"]}
{"id": "C15", "title": "S2_hard(x, y) is the contribution of the hard special leaves", "statement": "S2_hard returns the contribution of every remaining special leaf, no matter how the interval [1, z] is cut into segments and shared among threads and whether a segment is summed directly or through the binary indexed tree.", "quantifier": "every x, y, c, thread count, sequence of measured times (and so every segment-size history)", "why_tests_cant": "unbounded x, y and histories", "anchors": ["src/deleglise-rivat/S2_hard.cpp: S2_hard_OpenMP_thread, S2_hard_OpenMP_master"]}
{"id": "C16", "title": "Every special leaf is counted exactly once", "statement": "The trivial, easy and hard leaf sets computed for (x, y) are disjoint and their union is exactly the set of special leaves, so S2_trivial + S2_easy + S2_hard = S2.", "quantifier": "every x and every admissible y", "why_tests_cant": "set equality over unbounded ranges with many boundary cases", "anchors": ["src/deleglise-rivat/S2_trivial.cpp", "src/deleglise-rivat/S2_easy.cpp", "src/deleglise-rivat/S2_hard.cpp"]}
{"id": "C17", "title": "phi_sum(x, a) sums the numbers <= x coprime to the first a primes", "statement": "phi_sum(x, a), in 128-bit and in 256-bit arithmetic, returns the sum of all n in 1..x not divisible by any of the first a primes.", "quantifier": "every x in the type's range, every a", "why_tests_cant": "2^127 inputs; the arithmetic is fixed width", "anchors": ["src/phi_sum.cpp: phi_sum128, phi_sum256, phi_sum", "include/int256_t.hpp: operator*"]}
{"id": "C18", "title": "phi(x, a) counts the numbers <= x coprime to the first a primes", "statement": "phi(x, a, threads) returns the number of n in 1..x not divisible by any of the first a primes, for any thread count and regardless of what its cache already holds.", "quantifier": "every 64-bit x, a, threads, every cache history", "why_tests_cant": "unbounded x, a and cache histories", "anchors": ["src/phi.cpp: phi, PhiCache"]}
{"id": "C19", "title": "pi_legendre(x) counts the primes <= x", "statement": "pi_legendre(x, threads) = number of primes <= x.", "quantifier": "every x, threads", "why_tests_cant": "unbounded x", "anchors": ["src/pi_legendre.cpp: pi_legendre"]}
{"id": "C20", "title": "PhiTiny computes phi(x, a) for a <= 6", "statement": "phi_tiny(x, a) equals the count of numbers <= x coprime to the first a primes for 0 <= a <= 6; get_c(y) never exceeds the number of primes <= y.", "quantifier": "every 64-bit x >= 0, every a <= 6, every y >= 0", "why_tests_cant": "unbounded x (table lookups only cover x mod 30030)", "anchors": ["src/PhiTiny.cpp", "include/PhiTiny.hpp: phi, get_c, phi_tiny"]}
{"id": "C21", "title": "PiTable[n] is the number of primes <= n", "statement": "For a PiTable built for max, operator[](n) equals pi(n) for every n <= max.", "quantifier": "every max, every n <= max", "why_tests_cant": "unbounded max; bit-packed words", "anchors": ["src/PiTable.cpp", "include/PiTable.hpp: operator[]"]}
{"id": "C22", "title": "generate_moebius(max)[n] is the Moebius function", "statement": "For every n <= max, n >= 1, the table holds mu(n).", "quantifier": "every max that the int32_t entries can hold (max < 2^31), every n", "why_tests_cant": "unbounded", "anchors": ["src/generate.cpp: generate_moebius"]}
{"id": "C23", "title": "generate_lpf(max)[n] is the least prime factor", "statement": "For every 2 <= n <= max the table holds the least prime factor of n, and entry 1 holds INT32_MAX.", "quantifier": "every max that the int32_t entries can hold (max < 2^31), every n", "why_tests_cant": "unbounded", "anchors": ["src/generate.cpp: generate_lpf"]}
{"id": "C24", "title": "generate_pi(max)[n] is the number of primes <= n", "statement": "For every n <= max the table holds pi(n).", "quantifier": "every max whose pi(max) fits the int32_t entries, every n", "why_tests_cant": "unbounded", "anchors": ["src/generate.cpp: generate_pi"]}
{"id": "C25", "title": "generate_prime_sums(max)[i] is the sum of the first i primes", "statement": "Entry i is the sum of the first i primes, entry 0 is 0, and there are pi(max)+1 entries.", "quantifier": "every max and entry type that holds max*(max+1)/2, every i", "why_tests_cant": "unbounded", "anchors": ["include/generate.hpp: generate_prime_sums"]}
{"id": "C26", "title": "FactorTable stores Moebius and least prime factor of every n coprime to 210", "statement": "For n = get_number(i) <= y: lpf(i) is 0 iff n has a squared prime factor, mu(i) = mu(n) for squarefree n > 1, and p < lpf(i) iff every prime factor of n exceeds p, for primes p used by the program; the table is the same for every thread count and every interleaving because threads write disjoint entries.", "quantifier": "every y <= FactorTable::max() below 2^59 (larger tables would have 10^17 entries, and their int64_t products overflow from about 2^63/11 on), every thread count, every index", "why_tests_cant": "unbounded y; data races", "anchors": ["include/FactorTable.hpp: FactorTable, next_multiple, lpf, mu", "src/FactorTable.cpp: numbers_, indexes_"]}
{"id": "C27", "title": "FactorTable index conversion is a rounding Galois connection", "statement": "get_number(get_index(n)) is the largest m <= n coprime to 210, get_index(get_number(i)) = i, and number(i) > n iff i > get_index(n).", "quantifier": "every n >= 1, every index", "why_tests_cant": "unbounded n", "anchors": ["include/FactorTable.hpp: get_index, get_number", "src/FactorTable.cpp"]}
{"id": "C28", "title": "BitSieve::pre_sieve removes exactly the multiples of the first c primes", "statement": "After pre_sieve(c, low) with odd low, position i (even) is set iff low + i is not divisible by any of the first c primes (c < 10).", "quantifier": "every sieve size, every odd low that leaves room for 46 more (low + 46 <= 2^64, the code adds in uint64_t), every c < 10, every position", "why_tests_cant": "the copy-doubling of words depends on all sizes and offsets", "anchors": ["src/BitSieve.cpp: pre_sieve, masks, fast_modulo"]}
{"id": "C29", "title": "BitSieve::sum adds exactly the unsieved numbers in the interval", "statement": "sum(low, start, stop) is the sum of low + i over the set positions start <= i <= stop; the six-argument form returns the same value whether it counts forwards or backwards.", "quantifier": "every sieve content, every start/stop, every low for which 64-bit words do not overflow", "why_tests_cant": "2^64 word values, all offsets", "anchors": ["src/BitSieve.cpp: sum, sum_bits", "include/BitSieve.hpp: sum", "include/SumBits.hpp"]}
{"id": "C30", "title": "BinaryIndexedTree::sum is the prefix sum of the sieve", "statement": "After init(sieve, low) and any sequence of cross-offs each followed by update(n, low), sum(pos) is the sum of low + i over the unsieved even positions i <= pos.", "quantifier": "every sieve size and low with low + size <= 2^63 (the positions are int64_t), every content, every update history, every pos", "why_tests_cant": "unbounded histories", "anchors": ["include/BinaryIndexedTree.hpp: init, update, sum"]}
{"id": "C31", "title": "Wheel enumerates exactly the multiples of p coprime to 210", "statement": "The wheel started at low visits, in increasing order and without gaps, exactly the multiples p*k >= low with k not divisible by 2, 3, 5, 7.", "quantifier": "every prime p and low with low + 10 p < 2^63, every number of steps until the multiple no longer fits int64_t", "why_tests_cant": "unbounded", "anchors": ["include/Wheel.hpp: Wheel, next_multiple_factor", "src/Wheel.cpp: init, next"]}
{"id": "C32", "title": "isqrt and iroot are exact whatever the floating point error", "statement": "isqrt(x) = floor(sqrt x) and iroot<N>(x) = floor(x^(1/N)) for any initial floating point estimate.", "quantifier": "every x, every initial estimate, every N >= 1", "why_tests_cant": "128-bit x; the platform's sqrt/pow error is unknown", "anchors": ["include/isqrt.hpp: isqrt, ct_sqrt", "include/imath.hpp: iroot, ipow"]}
{"id": "C33", "title": "int256_t addition, subtraction, negation, increment are exact modulo 2^256", "statement": "+, -, unary -, ~, ++, -- agree with integer arithmetic modulo 2^256 in two's complement.", "quantifier": "all pairs of 256-bit values", "why_tests_cant": "2^512 pairs", "anchors": ["include/int256_t.hpp"]}
{"id": "C34", "title": "int256_t multiplication is exact modulo 2^256", "statement": "operator* agrees with integer multiplication modulo 2^256.", "quantifier": "all pairs of 256-bit values", "why_tests_cant": "2^512 pairs; fast path chosen by the operands", "anchors": ["include/int256_t.hpp: operator*"]}
{"id": "C35", "title": "int256_t division and modulo truncate towards zero like C++ integers", "statement": "x / y and x % y are the truncated quotient and remainder for every y != 0.", "quantifier": "all pairs of 256-bit values", "why_tests_cant": "2^512 pairs; bit-serial loop", "anchors": ["include/int256_t.hpp: udiv256, div256"]}
{"id": "C36", "title": "int256_t comparisons order values as signed integers", "statement": "<, <=, >, >=, ==, != agree with the order of the represented integers. min_value() and max_value() are the ends of that order, -2^255 and 2^255 - 1.", "quantifier": "all pairs", "why_tests_cant": "2^512 pairs", "anchors": ["include/int256_t.hpp"]}
{"id": "C37", "title": "int256_t shifts, bitwise operators and conversions", "statement": "<< and >> by 1..255 bits are multiplication / floor division by powers of two of the 256-bit word, &, | and ^ act on every bit of the two's complement representation, and conversion to a narrower type returns the value reduced modulo 2^width.", "quantifier": "all values, all shift counts, all target types", "why_tests_cant": "2^256 values", "anchors": ["include/int256_t.hpp: operator<<, operator>>, conversion operators"]}
{"id": "C38", "title": "Printed results are the decimal representation", "statement": "operator<< on int128_t and int256_t prints the canonical decimal representation; reading the printed digits back gives the value.", "quantifier": "every value except the most negative one", "why_tests_cant": "2^256 values", "anchors": ["include/int256_t.hpp: operator<<", "include/int128_t.hpp: operator<<"]}
{"id": "C39", "title": "Arithmetic expressions are evaluated with the documented precedence and associativity", "statement": "to_int128(expr) returns the value of the expression under the documented operator table, for every well-formed expression whose intermediate values fit.", "quantifier": "every expression tree, every spelling of it with white space and parentheses; the outcome is also characterised when an operation has no value", "why_tests_cant": "infinitely many expressions", "anchors": ["include/calculator.hpp: ExpressionParser"]}
{"id": "C40", "title": "Ill-formed expressions are rejected", "statement": "If to_int128(expr) returns a value then expr is derivable from the grammar with that value; every other string, and division by zero, raises calculator::error.", "quantifier": "every string whose evaluation performs no undefined operation (signed overflow, shift by a wrong amount) before the error", "why_tests_cant": "infinitely many strings", "anchors": ["include/calculator.hpp: unexpected, checkZero"]}
{"id": "C41", "title": "Command line: the run mode is determined by the documented rules", "statement": "A computation starts only if exactly one number was given; the last algorithm option wins; unknown options, parse errors or a missing/second number print the help and stop.", "quantifier": "every argument vector", "why_tests_cant": "infinitely many argument vectors", "anchors": ["src/app/cmdoptions.cpp: makeOption, parseOptions"]}
{"id": "C42", "title": "63-bit algorithms reject larger inputs", "statement": "With --lmo* any x >= 2^63 is rejected with an error and no result is printed.", "quantifier": "every x, every --lmo option", "why_tests_cant": "2^127 inputs", "anchors": ["src/app/main.cpp: int64_cast, main"]}
{"id": "C43", "title": "Inputs above the limit are rejected, never answered", "statement": "pi(x) raises an error for every x above get_max_x(alpha), and accepted x satisfy the documented bound z < 2^62.", "quantifier": "every x, every alpha", "why_tests_cant": "unbounded x; depends on floating point", "anchors": ["src/primesum.cpp: get_max_x", "src/deleglise-rivat/pi_deleglise_rivat_parallel1.cpp"]}
{"id": "C44", "title": "The thread setting is clamped", "statement": "After set_num_threads(n), get_num_threads() is n clamped to 1..max; ideal_num_threads always returns between 1 and max(1, threads) and never more than one thread per threshold numbers.", "quantifier": "every int, every history of set_num_threads calls", "why_tests_cant": "unbounded histories", "anchors": ["src/primesum.cpp: set_num_threads, get_num_threads, ideal_num_threads", "include/imath.hpp: in_between"]}
{"id": "C45", "title": "The load balancer keeps the work partition valid", "statement": "Whatever times are measured (any double values, also infinite ones and NaN) the segment size stays a positive power of two, segments per thread stays >= 1, the intervals handed to the threads are disjoint and together cover [1, z] exactly once, the loop terminates, and every conversion of a double to int64_t is defined.", "quantifier": "every z < 2^62, limit <= 2^61 with up to 2^24 threads (or limit <= 2^60 with any number), every sequence of measured times, every function in place of log, every schedule; no int64_t variable of the load balancer overflows", "why_tests_cant": "timings are arbitrary reals", "anchors": ["src/S2LoadBalancer.cpp: update, update_min_size", "src/deleglise-rivat/S2_hard.cpp: S2_hard_OpenMP_master", "src/lmo/pi_lmo_parallel1.cpp: S2"]}
{"id": "C46", "title": "fast_div equals integer division", "statement": "fast_div(x, y) = x / y for every x and every y that the program passes (0 < y, y representable as the program's types guarantee).", "quantifier": "every x, y", "why_tests_cant": "2^192 pairs", "anchors": ["include/fast_div.hpp"]}
{"id": "C47", "title": "libdivide branch-free division equals integer division", "statement": "For every 64-bit n and every divisor d >= 2, dividing n by a libdivide branch-free divider built from d gives n / d.", "quantifier": "all n < 2^64, all 2 <= d < 2^64", "why_tests_cant": "2^128 pairs", "anchors": ["include/libdivide.h: libdivide_u64_branchfree_gen, libdivide_u64_branchfree_do", "src/deleglise-rivat/S2_easy_libdivide.cpp"]}
{"id": "C48", "title": "Power-of-two helpers", "statement": "next_power_of_2(x) is the least power of two >= x and prev_power_of_2(x) the greatest power of two <= x.", "quantifier": "every x in the type", "why_tests_cant": "2^63 inputs", "anchors": ["include/imath.hpp: next_power_of_2, prev_power_of_2"]}
{"id": "C49", "title": "popcnt64 counts one bits", "statement": "The portable popcnt64 returns the number of one bits of its argument.", "quantifier": "all 2^64 words", "why_tests_cant": "2^64 inputs", "anchors": ["include/popcnt.hpp"]}
{"id": "C50", "title": "pi_bsearch counts the primes <= x", "statement": "pi_bsearch(primes, x) = pi(x) for a 1-indexed prime table covering x.", "quantifier": "every table length, every x", "why_tests_cant": "unbounded", "anchors": ["include/imath.hpp: pi_bsearch"]}
{"id": "C51", "title": "No table is ever read or written out of bounds", "statement": "During any run of the algorithms every vector index used lies inside the vector (reads of pi, primes, mu, lpf, factor tables, sieve words, tree nodes, phi and mu_sum vectors).", "quantifier": "every x, every admissible y, every history", "why_tests_cant": "memory safety over unbounded inputs", "anchors": ["src/deleglise-rivat/S2_hard.cpp", "src/deleglise-rivat/S2_easy.cpp", "src/lmo"]}
{"id": "C52", "title": "All loops terminate", "statement": "Every loop and recursion of the prime summing algorithms terminates for every input.", "quantifier": "every x, y, history", "why_tests_cant": "termination", "anchors": ["src/P2.cpp", "src/phi.cpp", "src/phi_sum.cpp", "include/int256_t.hpp: operator<<"]}
{"id": "C53", "title": "The program prints the sum of the primes", "statement": "For every accepted command line whose algorithm is pi (default), --deleglise_rivat* or --lmo*, the program prints exactly the decimal digits of the sum of the primes <= x, or an error message if x exceeds the limit of the algorithm; the other options (--time, --status, --threads, --alpha) do not change what is printed.", "quantifier": "every argument vector, every x, every thread count, every schedule", "why_tests_cant": "infinitely many argument vectors and inputs", "anchors": ["src/app/main.cpp: main", "src/app/cmdoptions.cpp", "src/primesum.cpp"]}
{"id": "C54", "title": "The options for the parts of the formula print those parts", "statement": "--P2, --S1, --S2_trivial, --S2_easy and --S2_hard print P2(x,y), S1(x,y,c), the trivial, easy and hard special leaves for the y and c which the full algorithm uses; S1 + S2_trivial + S2_easy + S2_hard + (sum of primes <= y) - 1 - P2 is the sum of the primes <= x.", "quantifier": "every x, every tuning factor, every schedule", "why_tests_cant": "no reference values for the parts; unbounded", "anchors": ["src/app/main.cpp: P2, S1, S2_trivial, S2_easy, S2_hard"]}
{"id": "C55", "title": "pi(string) evaluates the expression and returns the decimal prime sum", "statement": "primesum::pi(const std::string& x) parses x as an arithmetic expression of value v and returns the decimal digits of the sum of the primes <= v; text which is no expression throws.", "quantifier": "every string", "why_tests_cant": "infinitely many strings", "anchors": ["src/primesum.cpp: pi(const string&)", "include/calculator.hpp"]}
{"id": "C56", "title": "Settings given by the user are the settings in force", "statement": "A status precision n set by the user is used as max(0, min(n, 5)) for every x, the default is 2, 1 or 0 for x >= 10^23, x >= 10^21 or less, where x is compared as a double; a tuning factor alpha with 1 <= alpha <= x^(1/6) given by the user is the one used by the algorithm, every other request is limited to [1, x^(1/6)] and alpha < 1 selects the default formula. The sieve limit is then y = floor(alpha * x^(1/3)) up to one rounding.", "quantifier": "every setting and every x", "why_tests_cant": "alpha does not change the result, so no test of results can see that it is ignored", "anchors": ["src/primesum.cpp: set_status_precision, get_status_precision, get_alpha_lmo, get_alpha_deleglise_rivat"]}
{"id": "C57", "title": "primesieve::iterator returns the neighbouring primes for any sequence of calls", "statement": "On an iterator created at any 64-bit start with any stop hint, every call of next_prime() returns the least prime greater than the value returned before (start at first), or 2^64-1 if there is none below 2^64, and every call of prev_prime() the largest prime less than it, or 0 if there is none; forward and backward calls may be mixed in any order.", "quantifier": "every start, every stop hint, every finite sequence of calls, every cache size, sieve size and rounding of the floating point functions", "why_tests_cant": "2^64 starting points, infinitely many call sequences; buffer and segment boundaries depend on the machine", "anchors": ["lib/primesieve/include/primesieve/iterator.hpp", "lib/primesieve/src/iterator.cpp", "lib/primesieve/src/IteratorHelper.cpp", "lib/primesieve/src/PrimeGenerator.cpp"]}
{"id": "C58", "title": "primesum's loops over the primes and its prime tables are those of the contract", "statement": "A loop over next_prime() up to hi runs for exactly the primes of (pos, hi] in increasing order; generate_primes(max) is {0, 2, 3, 5, ...} up to max and generate_n_primes(n) is {0} followed by the first n primes, when computed by the bundled sieve.", "quantifier": "every 64-bit pos, hi < 2^64-1, max, every n whose next prime is below 2^64, every loop body", "why_tests_cant": "unbounded", "anchors": ["src/generate.cpp", "include/generate.hpp", "src/PiTable.cpp", "src/P2.cpp", "include/FactorTable.hpp"]}
{"id": "C59", "title": "store_primes and store_n_primes append exactly the requested primes", "statement": "store_primes(start, stop, v) appends the primes of [start, stop] in increasing order to v; store_n_primes(n, start, v) appends the first n primes >= start if n+1 of them are below 2^64 and throws otherwise.", "quantifier": "every 64-bit start and stop, every n >= 1, every previous content of v", "why_tests_cant": "2^128 intervals", "anchors": ["lib/primesieve/include/primesieve/StorePrimes.hpp"]}
{"id": "C60", "title": "PrimeGenerator::fill yields exactly the primes of its interval", "statement": "PrimeGenerator(start, stop).fill(primes) appends exactly the primes of [start, stop] in increasing order; the variant for next_prime returns the first of them in a buffer of 256, and 0 primes or the single value 2^64-1 only if there are none.", "quantifier": "every start <= stop < 2^64, every sieve size, L1 cache size and division of the sieving primes among the three crossing-off algorithms", "why_tests_cant": "segment boundaries, wheel positions and bucket lists have far too many combinations", "anchors": ["lib/primesieve/src/PrimeGenerator.cpp", "lib/primesieve/src/Erat.cpp", "lib/primesieve/src/EratSmall.cpp", "lib/primesieve/src/EratMedium.cpp", "lib/primesieve/src/EratBig.cpp", "lib/primesieve/src/PreSieve.cpp"]}
{"id": "C61", "title": "The bit scan finds the lowest prime of a word", "statement": "Erat::nextPrime(bits, low) returns the number of the lowest set bit of every non-zero 64-bit word, with the compiler's bit scan and with the De Bruijn table alike.", "quantifier": "every non-zero 64-bit word, every low", "why_tests_cant": "2^64 words; the De Bruijn variant is not compiled on the test machines", "anchors": ["lib/primesieve/include/primesieve/Erat.hpp"]}
{"id": "C62", "title": "libdivide without 128-bit integers", "statement": "In builds without 128-bit integers a branch-free libdivide divider d still divides every 64-bit number exactly: the long division with 32-bit digits returns the exact quotient and remainder of a 128 by 64 bit division, the portable high product is the high half of the 128-bit product, and the count of leading zeros normalises every non-zero word.", "quantifier": "every 64-bit dividend, every 64-bit divisor >= 2; for the division every u1 < v < 2^64 and u0 < 2^64", "why_tests_cant": "2^128 inputs; the portable branches are not compiled on 64-bit x86 test machines, and the second correction step is taken for a vanishing fraction of the inputs", "anchors": ["include/libdivide.h:libdivide_128_div_64_to_64", "include/libdivide.h:libdivide_mullhi_u64", "include/libdivide.h:libdivide_count_leading_zeros64"]}
{"id": "C63", "title": "The self test never raises a false alarm and detects disagreements", "statement": "primesum --test succeeds: every comparison between two of the algorithms agrees, whatever the random arguments, number of threads, tuning factor, schedules and timings.  Conversely a comparison passes only if the two functions agree on 0..9999 and on all the random arguments; otherwise an exception is thrown and the exit status is 1.", "quantifier": "every sequence of results of rand(), every number of threads >= 1, alpha, OpenMP schedule and timing", "why_tests_cant": "one run of the self test sees one random sequence and one interleaving", "anchors": ["src/test.cpp"]}
{"id": "C64", "title": "The int128_t sums do not overflow", "statement": "For small x the parts of the result are summed in int128_t, a signed type whose overflow is undefined behaviour. No addition, subtraction or multiplication of that type overflows, in any intermediate state of any thread, and the value is the exact sum.", "quantifier": "every x and y for which the 128-bit instantiation is selected (S1, P2, S2_hard: x <= INT64_MAX; S2_easy: x < 2^64, y < 2^32), with the restrictions of the corresponding part (C11, C12, C14, C15), every c that the program can choose, every thread count, schedule, sequence of timings and order of the additions", "why_tests_cant": "the intermediate sums depend on the schedule; wrapping hardware hides an overflow that cancels out", "anchors": ["src/S1.cpp: S1_OpenMP_master<int64_t>", "src/P2.cpp: P2_OpenMP_master<int64_t>", "src/deleglise-rivat/S2_easy.cpp: S2_easy_OpenMP<int128_t>", "src/deleglise-rivat/S2_easy_libdivide.cpp: S2_easy_OpenMP<int128_t>", "src/deleglise-rivat/S2_hard.cpp: S2_hard_OpenMP_master<int64_t>"]}
{"id": "C65", "title": "The sieves with the memory pool cross off exactly the multiples of their primes", "statement": "EratMedium and EratBig keep sieving primes in linked lists of 8 KiB buckets which are found by arithmetic on addresses. Whatever addresses new returns and whatever the memory contains, addSievingPrime and crossOff access nothing but buckets of the pool and, in every segment, clear exactly the bits of the multiples of the primes added so far; the only exception is std::bad_alloc, and only if new refuses a request for at most 16 MiB although it has granted no more than 16 KiB per list and per 1022 sieving primes.", "quantifier": "every allocator that returns disjoint chunks, every initial content of memory, every sequence of segments and of primes added before each of them, stop < 2^64, sieve sizes up to 4 MiB", "why_tests_cant": "a test sees the addresses of one allocator; a bucket that is shared by two lists or a missed end pointer loses primes only for some numbers of primes per list", "anchors": ["lib/primesieve/src/MemoryPool.cpp", "lib/primesieve/include/primesieve/Bucket.hpp", "lib/primesieve/src/EratMedium.cpp", "lib/primesieve/src/EratBig.cpp"]}
{"id": "C66", "title": "The memory pool neither leaks nor shares buckets", "statement": "After any sequence of addSievingPrime and crossOff, every bucket of the memory obtained from new is in exactly one place of exactly one list: the stock of empty buckets or one of the lists of sieving primes. No single allocation exceeds 16 MiB (MAX_ALLOC_BYTES).", "quantifier": "as C65", "why_tests_cant": "leaks within a pool are invisible from outside and only cost memory; sharing shows only for particular sequences", "anchors": ["lib/primesieve/src/MemoryPool.cpp", "lib/primesieve/src/EratMedium.cpp: crossOff", "lib/primesieve/src/EratBig.cpp: crossOff"]}
{"id": "C67", "title": "The sizes of the sieves are valid for every CPU", "statement": "get_sieve_size() is a power of two from 8 to 4096 KiB whatever the library believes about the caches of the CPU and whatever was passed to set_sieve_size; the limits between the three sieving algorithms, which are computed in double, are at most the cache size and exactly five times the sieve size, and their conversions to uint64_t are defined.", "quantifier": "every description of the CPU (cache sizes, presence and sharing of caches), every argument of set_sieve_size", "why_tests_cant": "a test machine has one CPU", "anchors": ["lib/primesieve/src/api.cpp: get_sieve_size, set_sieve_size", "lib/primesieve/src/Erat.cpp: initErat, initSieve, getL1CacheSize"]}
{"id": "C68", "title": "The tuning factor and the values derived from it are defined", "statement": "For every tuning factor set by the user except NaN (including infinities, negative and huge values) the factor used is a finite number from 1 to x^(1/6), the conversions of x^(1/3)*alpha to int64_t and of get_max_x to int128_t are defined, and iroot<3>(x) <= y <= sqrt(x) in spite of the rounding of the double arithmetic.", "quantifier": "every x, every double value of alpha, every rounding error of log and pow within the stated accuracy", "why_tests_cant": "a conversion of a double that does not fit is undefined behaviour and depends on rounding at single values of x", "anchors": ["src/primesum.cpp: get_max_x, set_alpha, get_alpha_lmo, get_alpha_deleglise_rivat", "src/deleglise-rivat/pi_deleglise_rivat_parallel1.cpp", "src/lmo/pi_lmo_parallel1.cpp"]}
{"id": "C69", "title": "The progress shown is a percentage", "statement": "With --status, P2 shows percentages between 0 and 100 that never decrease; S2_easy shows percentages that are at most 100, are never shown as a negative number other than -0, and increase if one thread computes. S2_easy reports one step for each prime it treats, out of the number of primes up to x^(1/3); the last one is 100. (With several threads the display of S2_easy can go back: the try-lock does not protect the variables.) Showing progress does not change a result and cannot fail.", "quantifier": "every x, number of threads, schedule, interleaving of the threads and reading of the clock", "why_tests_cant": "the output depends on timings and on the interleaving of threads", "anchors": ["src/S2Status.cpp", "src/P2.cpp: P2_OpenMP_master", "include/primesum-internal.hpp: get_percent", "src/print.cpp"]}
{"id": "C70", "title": "What is on the output streams", "statement": "Without --status and --time the standard output consists of the result in decimal and one newline, the standard error is empty and the exit code is 0; an error message goes to the standard error only, with exit code 1. --time adds a line with the seconds; --status adds output before the result only, and for a part of the formula the last lines are its name and value and the seconds. The digits are the same with and without these options.", "quantifier": "every accepted command line, every environment", "why_tests_cant": "scripts parse the output for arbitrary x; a stray character that appears for some option or some x is not covered by examples", "anchors": ["src/app/main.cpp", "src/print.cpp", "src/P2.cpp", "src/S1.cpp", "src/deleglise-rivat/*.cpp", "src/lmo/*.cpp"]}
{"id": "C71", "title": "The help screen and the exit codes", "statement": "Every option in the help screen exists under both names and takes the value described there; the two example command lines compute the sum of the primes up to 10^13. A command line that is not understood, --help and --version print the help screen or the version on the standard output and exit with code 1; --test prints its progress and exits with code 0, or, if a comparison fails, prints a message on the standard error and exits with code 1. The help screen's promise x <= 10^31 does not hold without --alpha: numbers from 6*10^30 on are rejected with an error message; numbers up to 5*10^30 are not rejected, and with a tuning factor of at least 202 neither is 10^31.", "quantifier": "every command line, every environment, every accurate log and pow", "why_tests_cant": "computations near 10^31 take years; the limit depends on floating point functions; command lines are unbounded", "anchors": ["src/app/help.cpp", "src/app/cmdoptions.cpp", "src/primesum.cpp: get_max_x, get_alpha_deleglise_rivat", "src/test.cpp"]}
{"id": "C72", "title": "The low bits of the result are always right", "statement": "For every x < 2^103 that pi(x) accepts, the low 64 bits of the returned int256_t are those of the sum of the primes <= x, on up to 2^26 threads; with the default tuning factor there is no condition on x. As long as the sums of the sieve fit 64 bits (x < 2^88, or the default tuning factor and x <= 5*10^29) the low 128 bits are right. So the defects of int256_t multiplication and of the 64-bit sums of the sieve can only add a multiple of 2^128 or 2^64. The same holds for the number that the program prints and (low 64 bits) for the text that pi(string) returns; without --alpha the program prints, for every number, a message that it is too large or a number of which the low 64 bits are right.", "quantifier": "every x up to the limit and below 2^103, every tuning factor, thread count up to 2^26, schedule and timing", "why_tests_cant": "the results beyond 10^19 cannot be checked independently; the errors depend on rare operands and on magnitudes that take years to reach", "anchors": ["src/deleglise-rivat/pi_deleglise_rivat_parallel1.cpp", "src/deleglise-rivat/S2_hard.cpp", "include/BitSieve.hpp", "include/int256_t.hpp: operator*", "src/phi_sum.cpp"]}
{"id": "C73", "title": "What is shown with --status is right", "statement": "With --status the program shows, in this order, the name of the algorithm and its formula, the parameters x, y, z = x/y, c, alpha and threads, then for every part of the formula its name, its progress, the value of the part and the elapsed time, and at the end the sum of the primes and the time. The parameters are those the algorithm uses, every shown value is the value of that part of the formula as defined mathematically (P2, S1, S2_trivial, S2_easy, S2_hard, or S2 for LMO), and nothing else is written. --P2, --S1, --S2_trivial, --S2_easy and --S2_hard show the parameters and the value of that part. With --lmo2, --lmo3 and --lmo4 only P2 and S1 are shown, with --lmo1 only P2; with --lmo5 the value shown for S2 is S2 reduced modulo 2^64 to the range of int64_t.", "quantifier": "every command line with --status, every x within the proved range, every tuning factor, thread count, schedule and timing", "why_tests_cant": "the partial sums depend on y and so on the tuning factor, there are no independent tables of them, and the text depends on the interleaving of the threads", "anchors": ["src/print.cpp", "src/P2.cpp", "src/S1.cpp", "src/deleglise-rivat/S2_trivial.cpp", "src/deleglise-rivat/S2_easy.cpp", "src/deleglise-rivat/S2_hard.cpp", "src/deleglise-rivat/pi_deleglise_rivat_parallel1.cpp", "src/lmo/pi_lmo1.cpp - pi_lmo5.cpp, pi_lmo_parallel1.cpp", "src/app/main.cpp"]}
{"id": "C74", "title": "The sum of the primes, down to the memory pools", "statement": "The results of the whole program do not depend on an assumption about the primesieve library: with the code of lib/primesieve in the place of a list of primes - its iterators, sieves, buckets and memory pools - pi(x, threads) returns the sum of the primes <= x for every x below 5.2*10^19 (and beyond, in the range of C01), and the command line program prints it, unless new refuses at most 16 MiB to a memory pool that holds at most 128 GiB, in which case std::bad_alloc is thrown and the program prints that it failed to allocate memory, or is terminated if this happens in a thread of a parallel region. For every option and every command line the output is the one proved for the program with the list of primes. Numbers above the limit are refused before memory is requested.", "quantifier": "every x, option, command line, tuning factor, thread count, schedule and timing, every behaviour of new and every content of new memory", "why_tests_cant": "the composition runs through a dozen loops over primes in many threads, each with its own sieve whose segment sizes depend on the cache sizes of the machine and whose memory comes from the operating system", "anchors": ["src/app/main.cpp", "src/deleglise-rivat/pi_deleglise_rivat_parallel1.cpp", "src/lmo/", "src/P2.cpp", "src/S1.cpp", "src/generate.cpp", "src/PiTable.cpp", "include/FactorTable.hpp", "src/phi.cpp", "lib/primesieve/src/"]}
{"id": "C75", "title": "The memory of the sieves is bounded by the number of sieving primes", "statement": "The pools of EratMedium and EratBig reuse the buckets that become empty: after any number of segments the memory that a pool has obtained is at most 16 KiB for every 1022 sieving primes, 16 KiB for every list (130 for EratMedium, 2*(maxPrime/3/sieveSize+5) for EratBig) and 16 MiB. It does not grow with the number of segments sieved.", "quantifier": "as C65: every allocator, every initial content of memory, every number of segments, every sequence of primes", "why_tests_cant": "a pool that never reuses buckets gives the same primes; it only runs out of memory after sieving long enough", "anchors": ["lib/primesieve/src/MemoryPool.cpp", "lib/primesieve/src/EratMedium.cpp: crossOff", "lib/primesieve/src/EratBig.cpp: crossOff"]}
{"id": "C76", "title": "min and max of numbers of different types", "statement": "The templates min(A, B), min(A, B, B), max(A, B) and max(A, B, B), which convert their operands, return the least and the greatest of the numbers for every pair of types that they accept, if no negative number is compared with an unsigned one and (min) the number of the larger type is not less than every value of the smaller type. Of types of whole bytes no further pair could be accepted.", "quantifier": "every pair of integral types of any size and signedness, all values of these types", "why_tests_cant": "128-bit operands cannot be enumerated, and a wrong conversion only shows for operands near the limits of a type", "anchors": ["include/min_max.hpp"]}
