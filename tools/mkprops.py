import json
P=[]
def p(title, statement, quantifier, why, anchors):
    P.append(dict(id="C%02d"%(len(P)+1), title=title, statement=statement, quantifier=quantifier, why_tests_cant=why, anchors=anchors))
p("primesum x prints the sum of the primes <= x",
  "pi(x) (the default Deleglise-Rivat algorithm) returns exactly the sum of all primes p <= x, for every x the program accepts.",
  "every x in 0 .. get_max_x, every tuning factor alpha, every thread count, every load-balancing history",
  "x ranges over up to 10^31 values and each run also depends on timing; the self test only tries x < 10000 plus ~900 random points below 10^10",
  ["src/deleglise-rivat/pi_deleglise_rivat_parallel1.cpp: pi_deleglise_rivat_parallel1, S2", "src/primesum.cpp: pi"])
p("The result does not depend on threads or scheduling",
  "For fixed x the value returned is the same for every number of threads, every assignment of loop iterations to threads, every order in which partial results are reduced, and every timing the load balancers observe.",
  "every thread count, every reduction order, every sequence of interval lengths chosen by the load balancers",
  "interleavings and timings are unbounded and not controllable from a unit test",
  ["src/deleglise-rivat/S2_hard.cpp: S2_hard_OpenMP_master", "src/P2.cpp: P2_OpenMP_master", "src/S1.cpp", "src/S2LoadBalancer.cpp"])
p("The result does not depend on the tuning factor alpha",
  "For fixed x, every admissible y = x^(1/3) * alpha with 1 <= alpha <= x^(1/6) (option --alpha) gives the same returned sum.",
  "every x, every y between iroot<3>(x) and iroot<3>(x)*iroot<6>(x)",
  "alpha is a real number supplied by the user; tests only use the default",
  ["src/primesum.cpp: get_alpha_deleglise_rivat, set_alpha", "src/deleglise-rivat/pi_deleglise_rivat_parallel1.cpp"])
p("x < 2 gives 0 and every positive x gives a non-negative answer",
  "Every prime summing entry point returns 0 for x < 2 (also for negative x), and the answer is monotone in x.",
  "every integer x, every algorithm", "all negative x and all pairs x <= x'",
  ["src/lmo/pi_lmo1.cpp", "src/deleglise-rivat/pi_deleglise_rivat_parallel1.cpp"])
p("--lmo1 computes the sum of the primes <= x",
  "pi_lmo1(x) equals the sum of the primes <= x.", "every x >= 0", "unbounded x",
  ["src/lmo/pi_lmo1.cpp: pi_lmo1"])
p("--lmo2 computes the sum of the primes <= x",
  "pi_lmo2(x) equals the sum of the primes <= x whenever that sum fits in 63 bits, for every admissible y.", "every x >= 0, every admissible y", "unbounded x",
  ["src/lmo/pi_lmo2.cpp: pi_lmo2, S2"])
p("--lmo3 computes the sum of the primes <= x",
  "pi_lmo3(x) (segmented sieve) equals the sum of the primes <= x whenever that sum fits in 63 bits, for every admissible y.", "every x >= 0, every admissible y", "unbounded x",
  ["src/lmo/pi_lmo3.cpp: pi_lmo3, S2, cross_off"])
p("--lmo4 computes the sum of the primes <= x",
  "pi_lmo4(x) (segmented sieve with binary indexed tree) equals the sum of the primes <= x whenever that sum fits in 63 bits, for every admissible y.", "every x >= 0, every admissible y", "unbounded x",
  ["src/lmo/pi_lmo4.cpp: pi_lmo4, S2, cross_off"])
p("--lmo5 computes the sum of the primes <= x",
  "pi_lmo5(x) (bit sieve and wheel) equals the sum of the primes <= x whenever that sum fits in 63 bits, for every admissible y.", "every x >= 0, every admissible y", "unbounded x",
  ["src/lmo/pi_lmo5.cpp: pi_lmo5, S2, cross_off"])
p("--lmo / --lmo_parallel1 computes the sum of the primes <= x",
  "pi_lmo_parallel1(x) equals the sum of the primes <= x for every thread count, every load-balancing history and every admissible y.", "every x >= 0, every y, threads, interval history", "unbounded x and histories",
  ["src/lmo/pi_lmo_parallel1.cpp: pi_lmo_parallel1, S2, S2_thread"])
p("P2(x, y) is the second partial sieve function",
  "P2(x, y, threads) returns the sum of the numbers n <= x with exactly two prime factors (with multiplicity), both greater than y.",
  "every x, every y with x^(1/3) <= y, every thread count and every sequence of thread distances",
  "unbounded x; the distance sequence depends on wall clock time",
  ["src/P2.cpp: P2_OpenMP_master, P2_OpenMP_thread, balanceLoad"])
p("S1(x, y) is the contribution of the ordinary leaves",
  "S1(x, y, c, threads) returns the sum over squarefree n <= y with no prime factor among the first c primes of mu(n) * n * phi_sum(x / n, c).",
  "every x, y, c, thread count, reduction order", "unbounded x, y",
  ["src/S1.cpp: S1_OpenMP_master, S1_OpenMP_thread"])
p("S2_trivial(x, y) is the contribution of the trivial special leaves",
  "S2_trivial returns the sum of p*q over primes max(p_c, sqrt z) < p < q <= y with p*p*q > x.",
  "every x, y, z, c, thread count", "unbounded x, y",
  ["src/deleglise-rivat/S2_trivial.cpp: S2_trivial_OpenMP"])
p("S2_easy(x, y) is the contribution of the easy special leaves",
  "S2_easy returns the sum over prime pairs p < q <= y with p > sqrt(y), b = pi(p) > c, p <= x^(1/3), p*q > z, p*q > y and p*p*q <= x of p * q * phi_sum(x/(p q), pi(p)-1).",
  "every x, y, c, thread count, order of loop iterations", "unbounded x, y",
  ["src/deleglise-rivat/S2_easy.cpp: S2_easy_OpenMP", "src/deleglise-rivat/S2_easy_libdivide.cpp"])
p("S2_hard(x, y) is the contribution of the hard special leaves",
  "S2_hard returns the contribution of every remaining special leaf, no matter how the interval [1, z] is cut into segments and shared among threads and whether a segment is summed directly or through the binary indexed tree.",
  "every x, y, c, thread count, segment-size history, few_leaves decision", "unbounded x, y and histories",
  ["src/deleglise-rivat/S2_hard.cpp: S2_hard_OpenMP_thread, S2_hard_OpenMP_master"])
p("Every special leaf is counted exactly once",
  "The trivial, easy and hard leaf sets computed for (x, y) are disjoint and their union is exactly the set of special leaves, so S2_trivial + S2_easy + S2_hard = S2.",
  "every x and every admissible y", "set equality over unbounded ranges with many boundary cases",
  ["src/deleglise-rivat/S2_trivial.cpp", "src/deleglise-rivat/S2_easy.cpp", "src/deleglise-rivat/S2_hard.cpp"])
p("phi_sum(x, a) sums the numbers <= x coprime to the first a primes",
  "phi_sum(x, a), in 128-bit and in 256-bit arithmetic, returns the sum of all n in 1..x not divisible by any of the first a primes.",
  "every x in the type's range, every a", "2^127 inputs; the arithmetic is fixed width",
  ["src/phi_sum.cpp: phi_sum128, phi_sum256, phi_sum", "include/int256_t.hpp: operator*"])
p("phi(x, a) counts the numbers <= x coprime to the first a primes",
  "phi(x, a, threads) returns the number of n in 1..x not divisible by any of the first a primes, for any thread count and regardless of what its cache already holds.",
  "every x, a, threads, every cache history", "unbounded x, a and cache histories",
  ["src/phi.cpp: phi, PhiCache"])
p("pi_legendre(x) counts the primes <= x",
  "pi_legendre(x, threads) = number of primes <= x.", "every x, threads", "unbounded x",
  ["src/pi_legendre.cpp: pi_legendre"])
p("PhiTiny computes phi(x, a) for a <= 6",
  "phi_tiny(x, a) equals the count of numbers <= x coprime to the first a primes for 0 <= a <= 6; get_c(y) never exceeds the number of primes <= y.",
  "every x >= 0, every a <= 6, every y >= 0", "unbounded x (table lookups only cover x mod 30030)",
  ["src/PhiTiny.cpp", "include/PhiTiny.hpp: phi, get_c, phi_tiny"])
p("PiTable[n] is the number of primes <= n",
  "For a PiTable built for max, operator[](n) equals pi(n) for every n <= max.", "every max, every n <= max", "unbounded max; bit-packed words",
  ["src/PiTable.cpp", "include/PiTable.hpp: operator[]"])
p("generate_moebius(max)[n] is the Moebius function",
  "For every n <= max, n >= 1, the table holds mu(n).", "every max, every n", "unbounded",
  ["src/generate.cpp: generate_moebius"])
p("generate_lpf(max)[n] is the least prime factor",
  "For every 2 <= n <= max the table holds the least prime factor of n, and entry 1 holds INT32_MAX.", "every max, every n", "unbounded",
  ["src/generate.cpp: generate_lpf"])
p("generate_pi(max)[n] is the number of primes <= n",
  "For every n <= max the table holds pi(n).", "every max, every n", "unbounded",
  ["src/generate.cpp: generate_pi"])
p("generate_prime_sums(max)[i] is the sum of the first i primes",
  "Entry i is the sum of the first i primes, entry 0 is 0, and there are pi(max)+1 entries.", "every max, every i", "unbounded",
  ["include/generate.hpp: generate_prime_sums"])
p("FactorTable stores Moebius and least prime factor of every n coprime to 210",
  "For n = get_number(i) <= y: lpf(i) is 0 iff n has a squared prime factor, mu(i) = mu(n) for squarefree n > 1, and p < lpf(i) iff every prime factor of n exceeds p, for primes p used by the program; the table is the same for every thread count and every interleaving because threads write disjoint entries.",
  "every y <= FactorTable::max(), every thread count, every index", "unbounded y; data races",
  ["include/FactorTable.hpp: FactorTable, next_multiple, lpf, mu", "src/FactorTable.cpp: numbers_, indexes_"])
p("FactorTable index conversion is a rounding Galois connection",
  "get_number(get_index(n)) is the largest m <= n coprime to 210, get_index(get_number(i)) = i, and number(i) > n iff i > get_index(n).",
  "every n >= 1, every index", "unbounded n",
  ["include/FactorTable.hpp: get_index, get_number", "src/FactorTable.cpp"])
p("BitSieve::pre_sieve removes exactly the multiples of the first c primes",
  "After pre_sieve(c, low) with odd low, position i (even) is set iff low + i is not divisible by any of the first c primes (c < 10).",
  "every sieve size, every odd low, every c < 10, every position", "the copy-doubling of words depends on all sizes and offsets",
  ["src/BitSieve.cpp: pre_sieve, masks, fast_modulo"])
p("BitSieve::sum adds exactly the unsieved numbers in the interval",
  "sum(low, start, stop) is the sum of low + i over the set positions start <= i <= stop; the six-argument form returns the same value whether it counts forwards or backwards.",
  "every sieve content, every start/stop, every low for which 64-bit words do not overflow", "2^64 word values, all offsets",
  ["src/BitSieve.cpp: sum, sum_bits", "include/BitSieve.hpp: sum", "include/SumBits.hpp"])
p("BinaryIndexedTree::sum is the prefix sum of the sieve",
  "After init(sieve, low) and any sequence of cross-offs each followed by update(n, low), sum(pos) is the sum of low + i over the unsieved even positions i <= pos.",
  "every sieve size, every content, every update history, every pos", "unbounded histories",
  ["include/BinaryIndexedTree.hpp: init, update, sum"])
p("Wheel enumerates exactly the multiples of p coprime to 210",
  "The wheel started at low visits, in increasing order and without gaps, exactly the multiples p*k >= low with k not divisible by 2, 3, 5, 7.",
  "every prime p, every low, every number of steps", "unbounded",
  ["include/Wheel.hpp: Wheel, next_multiple_factor", "src/Wheel.cpp: init, next"])
p("isqrt and iroot are exact whatever the floating point error",
  "isqrt(x) = floor(sqrt x) and iroot<N>(x) = floor(x^(1/N)) for any initial floating point estimate.",
  "every x, every initial estimate, every N >= 1", "128-bit x; the platform's sqrt/pow error is unknown",
  ["include/isqrt.hpp: isqrt, ct_sqrt", "include/imath.hpp: iroot, ipow"])
p("int256_t addition, subtraction, negation, increment are exact modulo 2^256",
  "+, -, unary -, ~, ++, -- agree with integer arithmetic modulo 2^256 in two's complement.",
  "all pairs of 256-bit values", "2^512 pairs",
  ["include/int256_t.hpp"])
p("int256_t multiplication is exact modulo 2^256",
  "operator* agrees with integer multiplication modulo 2^256.", "all pairs of 256-bit values", "2^512 pairs; fast path chosen by the operands",
  ["include/int256_t.hpp: operator*"])
p("int256_t division and modulo truncate towards zero like C++ integers",
  "x / y and x % y are the truncated quotient and remainder for every y != 0.", "all pairs of 256-bit values", "2^512 pairs; bit-serial loop",
  ["include/int256_t.hpp: udiv256, div256"])
p("int256_t comparisons order values as signed integers",
  "<, <=, >, >=, ==, != agree with the order of the represented integers.", "all pairs", "2^512 pairs",
  ["include/int256_t.hpp"])
p("int256_t shifts and conversions",
  "<< and >> by 1..255 bits are multiplication / floor division by powers of two of the 256-bit word, and conversion to a narrower type returns the value reduced modulo 2^width.",
  "all values, all shift counts, all target types", "2^256 values",
  ["include/int256_t.hpp: operator<<, operator>>, conversion operators"])
p("Printed results are the decimal representation",
  "operator<< on int128_t and int256_t prints the canonical decimal representation; reading the printed digits back gives the value.",
  "every value except the most negative one", "2^256 values",
  ["include/int256_t.hpp: operator<<", "include/int128_t.hpp: operator<<"])
p("Arithmetic expressions are evaluated with the documented precedence and associativity",
  "to_int128(expr) returns the value of the expression under the documented operator table, for every well-formed expression whose intermediate values fit.",
  "every expression tree, every spelling of it with white space and parentheses", "infinitely many expressions",
  ["include/calculator.hpp: ExpressionParser"])
p("Ill-formed expressions are rejected",
  "If to_int128(expr) returns a value then expr is derivable from the grammar with that value; every other string, and division by zero, raises calculator::error.",
  "every string", "infinitely many strings",
  ["include/calculator.hpp: unexpected, checkZero"])
p("Command line: the run mode is determined by the documented rules",
  "A computation starts only if exactly one number was given; the last algorithm option wins; unknown options, parse errors or a missing/second number print the help and stop.",
  "every argument vector", "infinitely many argument vectors",
  ["src/app/cmdoptions.cpp: makeOption, parseOptions"])
p("63-bit algorithms reject larger inputs",
  "With --lmo* any x >= 2^63 is rejected with an error and no result is printed.",
  "every x, every --lmo option", "2^127 inputs",
  ["src/app/main.cpp: int64_cast, main"])
p("Inputs above the limit are rejected, never answered",
  "pi(x) raises an error for every x above get_max_x(alpha), and accepted x satisfy the documented bound z < 2^62.",
  "every x, every alpha", "unbounded x; depends on floating point",
  ["src/primesum.cpp: get_max_x", "src/deleglise-rivat/pi_deleglise_rivat_parallel1.cpp"])
p("The thread setting is clamped",
  "After set_num_threads(n), get_num_threads() is n clamped to 1..max; ideal_num_threads always returns between 1 and max(1, threads) and never more than one thread per threshold numbers.",
  "every int, every history of set_num_threads calls", "unbounded histories",
  ["src/primesum.cpp: set_num_threads, get_num_threads, ideal_num_threads", "include/imath.hpp: in_between"])
p("The load balancer keeps the work partition valid",
  "For every history of timings the segment size stays a positive power of two, segments per thread stays >= 1, the intervals handed to the threads are disjoint and together cover [1, z] exactly once, and the loop terminates.",
  "every z, thread count, timing history", "timings are arbitrary reals",
  ["src/S2LoadBalancer.cpp: update, update_min_size", "src/deleglise-rivat/S2_hard.cpp: S2_hard_OpenMP_master", "src/lmo/pi_lmo_parallel1.cpp: S2"])
p("fast_div equals integer division",
  "fast_div(x, y) = x / y for every x and every y that the program passes (0 < y, y representable as the program's types guarantee).",
  "every x, y", "2^192 pairs",
  ["include/fast_div.hpp"])
p("libdivide branch-free division equals integer division",
  "For every 64-bit n and every divisor d >= 2, dividing n by a libdivide branch-free divider built from d gives n / d.",
  "all n < 2^64, all 2 <= d < 2^64", "2^128 pairs",
  ["include/libdivide.h: libdivide_u64_branchfree_gen, libdivide_u64_branchfree_do", "src/deleglise-rivat/S2_easy_libdivide.cpp"])
p("Power-of-two helpers",
  "next_power_of_2(x) is the least power of two >= x and prev_power_of_2(x) the greatest power of two <= x.",
  "every x in the type", "2^63 inputs",
  ["include/imath.hpp: next_power_of_2, prev_power_of_2"])
p("popcnt64 counts one bits",
  "The portable popcnt64 returns the number of one bits of its argument.", "all 2^64 words", "2^64 inputs",
  ["include/popcnt.hpp"])
p("pi_bsearch counts the primes <= x",
  "pi_bsearch(primes, x) = pi(x) for a 1-indexed prime table covering x.", "every table length, every x", "unbounded",
  ["include/imath.hpp: pi_bsearch"])
p("No table is ever read or written out of bounds",
  "During any run of the algorithms every vector index used lies inside the vector (reads of pi, primes, mu, lpf, factor tables, sieve words, tree nodes, phi and mu_sum vectors).",
  "every x, every admissible y, every history", "memory safety over unbounded inputs",
  ["src/deleglise-rivat/S2_hard.cpp", "src/deleglise-rivat/S2_easy.cpp", "src/lmo"])
p("All loops terminate",
  "Every loop and recursion of the prime summing algorithms terminates for every input.",
  "every x, y, history", "termination",
  ["src/P2.cpp", "src/phi.cpp", "src/phi_sum.cpp", "include/int256_t.hpp: operator<<"])
with open('/verif/properties.jsonl','w') as f:
    for q in P: f.write(json.dumps(q)+"\n")
print(len(P))
