# Formal model of primesum — design

Source: `/repo` (kimwalisch/primesum, C++), read as text, never built or run.
Model and proofs: Lean 4.33.0 + Mathlib, project in `/verif/lean`.
Properties: `properties.jsonl`.  Claims and theorem names: `MANIFEST.json`
(written by `tools/mkmanifest.py` from the theorem names `Cxx_…` and `tools/status.json`).

## 1. Trusted base

* The Lean 4 kernel.  Every theorem uses only the axioms `propext`, `Quot.sound`, `Classical.choice`
  (checked by `vcheck`).  No `sorry`, `native_decide`, `bv_decide`, no added axiom.
* The reading of the C++ source: each model definition cites file and lines.
* The specification files `Verif/Spec/*` (prime sums, `phi`, special leaves, decimal notation, expression
  grammar, command line).  They do not import the model.
* OpenMP: a parallel loop executes every iteration exactly once, on some thread, in some order
  (`Scheduler.Valid`); private accumulators start at zero (`int256_t`: the default constructor, C33_zero) and are combined in some
  order.  A build without OpenMP is the case of one thread (`Scheduler.seq`).  Shared tables (`FactorTable`) are written
  by an arbitrary interleaving of single reads and writes (`Merge`).  The C++ memory model (torn or reordered
  accesses) is not modelled.
* Floating point.  The load balancer of S2_hard and pi_lmo_parallel1, `few_leaves`, the limits of EratSmall and EratMedium,
  the tuning factor `alpha` with its default formulas, `get_max_x` and `y = x^(1/3) * alpha` compute with IEEE 754 binary64
  values, including infinities and NaN (`Model/Dbl.lean`: every operation rounds the exact result to nearest, ties to
  even; there is one zero; a conversion to `int64_t` that does not fit and a division by zero are errors).  The measured times are arbitrary
  values of that type; in the load balancer `log` is an arbitrary function.  Everything else that the code obtains by
  floating point (`std::sqrt` and `std::pow` in `isqrt` and `iroot`, the comparison with 60 seconds in `P2`) is a
  parameter of the model.  The theorems hold for all its values, under these constraints only:
  - `Pi.Env.FP`: the functions `log` and `pow` of the C library, as used for `alpha` and `get_max_x`, are finite and of the
    right size (`Lib.OK`: `log` and its powers between 0 and a rough bound, `pow(2, 61)` and `pow(q, 1.5)` up to one
    part in a thousand), and the tuning factor that was set is not NaN (C68_nan: it is needed);
  - `ompMax ≥ 1`;
* Memory allocation succeeds.

## 2. Modelling conventions

* `M α := Except Err α`.  `Err` distinguishes out-of-bounds access (`oob`), a negative index or size (`neg`), division
  by zero, undefined shifts, signed overflow where it is modelled, a thrown exception with its text, and a loop that
  uses up its bound (`fuel`).  A theorem `Ok (model args) P` therefore says at once that there is no access outside
  of a table, that the run ends, and that the result satisfies `P`.
* Loops use a few combinators (counting up, down, strided, with `break`, general `while`); each has one invariant rule
  (`Base.lean`, `Model/Break.lean`).  A `while` loop has an explicit bound; reaching it is the error `fuel`.
* `std::vector` is `Vec` with checked reads and writes.
* Width of integers.  Modelled word by word: `int256_t` (two 128-bit words), sieve words, `popcnt64`, the `uint64_t` sums
  of `BitSieve`, `int128_t` in the calculator and in `phi_sum`, libdivide, `int64_t`/`int128_t`/`int256_t`
  results of the templates (type class `Res`: `W64`, `W128` wrap, `I256` is the word model, `CInt w` reports overflow),
  `int64_cast`, `(int)` of `--threads` and `--status`, the element types of all tables (`Model/Width.lean`: a value that
  does not fit is the error `overflow`; the `uint32_t` primes of `S2_hard` are truncated as in the code),
  `square_free * primes[b]` in `S1`, the `int64_t` variables of `phi`, `PhiTiny`, `FactorTable`, `P2`, `S2_trivial`, `S2_easy`, `Wheel`, the load balancer,
  the intervals of the threads, `S2_hard`, `BinaryIndexedTree` and LMO, with `phi[b]` and `phi_total` at the width of the
  algorithm (63 bits in pi_lmo2/3/5, 127 in pi_lmo4 and S2_hard, 255 in pi_lmo_parallel1).  What is left (indices that
  are bounded by the size of a table, counters of `for` loops up to such a bound) is unbounded; subtraction that must not
  go below zero is checked.  The header comment of each model file says which variables are unbounded.
* `isqrt`, `iroot` are `Nat.sqrt`, `iroot` in the callers; C32 proves that the code computes them for every estimate.

Layout: `Verif/Spec/*` (definitions independent of the model), `Verif/Model/*` (the code), `Verif/Proof/*` (lemmas),
`Verif/Props/*` (property theorems with examples that meet their hypotheses).

## 3. What is modelled

| Code | Model | Main theorems |
|---|---|---|
| include/int256_t.hpp | Int256 | C33–C38 |
| include/int128_t.hpp (output) | Int128 | C38 |
| include/isqrt.hpp, imath.hpp | Imath, Roots, Misc | C32, C48, C50 |
| include/fast_div.hpp, popcnt.hpp | Misc | C46, C49 |
| include/min_max.hpp (the other models use the minimum and maximum of numbers) | MinMax | C76 |
| include/libdivide.h: `branchfree_divider<uint64_t>`, with `__uint128_t` and with the portable helpers | Libdivide | C47, C62 |
| src/test.cpp | SelfTest | C63 |
| include/PhiTiny.hpp, src/PhiTiny.cpp | PhiTiny | C20 |
| include/PiTable.hpp, src/PiTable.cpp, src/generate.cpp | Generate | C21–C25 |
| include/FactorTable.hpp, src/FactorTable.cpp (with its threads) | FactorTable | C26, C27 |
| include/BitSieve.hpp, SumBits.hpp, src/BitSieve.cpp | BitSieve | C28, C29 |
| include/BinaryIndexedTree.hpp | BinaryIndexedTree | C30 |
| include/Wheel.hpp, src/Wheel.cpp | Wheel | C31 |
| src/phi.cpp (with cache and threads), pi_legendre.cpp | Phi | C18, C19 |
| src/phi_sum.cpp | PhiSum | C17 |
| src/P2.cpp, src/S1.cpp | P2, P2Iter, S1 | C11, C12 |
| src/deleglise-rivat/S2_trivial.cpp, src/nth_prime.cpp | S2Trivial | C13 |
| S2_easy.cpp, S2_easy_libdivide.cpp | S2Easy | C14 |
| S2_hard.cpp, src/S2LoadBalancer.cpp | S2Hard, S2LoadBalancer, Dbl | C15, C16, C45 |
| pi_deleglise_rivat_parallel1.cpp, src/primesum.cpp | Pi, Misc | C01–C04, C43, C44 |
| src/lmo/*.cpp | Lmo | C05–C10 |
| include/calculator.hpp | Calculator | C39, C40 |
| src/app/cmdoptions.cpp, main.cpp, `pi(string)`, settings | Main | C41, C42, C53–C56 |
| src/S2Status.cpp, src/print.cpp, `get_percent` and the output of all algorithms | Output | C69, C70, C73 |
| src/app/help.cpp, the output of src/test.cpp, exit codes | Help | C71 |
| the low bits of the result | — | C72 |
| all runs | — | C51, C52 |
| src/generate.cpp, PiTable, FactorTable, phi, pi_legendre, S1, S2_*, pi(x), src/lmo, main with the primesieve library inside | GenIter, PiIter, MainIter | C74 |
| the `int128_t` sums of S1, P2, S2_easy, S2_hard (`S2_trivial` always sums in `int256_t`) | the same models with `CInt 128` | C64 |

lib/primesieve (namespace `PS.Psv`):

| Code | Model | Proofs |
|---|---|---|
| src/LookupTables.cpp, the tables of EratSmall/EratMedium/EratBig/Wheel | PsvTables | PsvWheel |
| include/pmath.hpp, Bucket.hpp, Wheel.hpp, src/Erat{Small,Medium,Big}.cpp | PsvErat | PsvSmall, PsvEntry, PsvCross, PsvBig |
| src/MemoryPool.cpp, Bucket.hpp and the pointers of EratMedium.cpp and EratBig.cpp | PsvPool | PsvPool, Props/Pool (C65, C66, C75) |
| the same, used by Erat.cpp, SievingPrimes.cpp, PrimeGenerator.cpp, iterator.cpp, StorePrimes.hpp | PsvPoolIter | PsvPoolIter, Props/PoolIter |
| src/PreSieve.cpp, Erat.cpp, Erat.hpp, the sieve size in api.cpp | PsvErat | PsvPre, PsvSeg, PsvBits (C67) |
| src/SievingPrimes.cpp, PrimeGenerator.cpp | PsvIter | PsvStream, PsvGen, PsvFill |
| src/IteratorHelper.cpp, iterator.cpp, StorePrimes.hpp | PsvIter | PsvIter, PsvStore |

The models of primesum's own code call the library through a contract (`Model/PrimeSieve.lean`: `nextPrime`,
`prevPrime`, `generatePrimes`, `generateNPrimes`; `forPrimes`).  C57–C61 prove that the modelled library meets it.
`PsvErat` describes a list of buckets by its contents.  `PsvPool` describes it as the source does, by an address, with
`MemoryPool`, alignment, linked lists and the arithmetic on addresses; `new` is a parameter that returns any disjoint chunk
or fails.  `Proof/PsvPool.lean` shows that each operation at the level of addresses gives what the operation on lists
gives, unless `new` fails; so the results of PsvErat hold for the code with the pool (C65).  A failure of `new` counts as an
excuse only while the pool holds little memory: the proof counts the buckets in use (every list has at most one bucket that is not
full), so `new` has granted at most 16 KiB per list and per 1022 sieving primes when it is asked again.  For the generators this
is bounded by 128 GiB per pool, the number of sieving primes by 2^32; an allocator that grants 128 GiB never leads to
`std::bad_alloc` (`heap0_memory` and the examples).  `PsvPoolIter` repeats
Erat.cpp, SievingPrimes.cpp, PrimeGenerator.cpp, iterator.cpp and StorePrimes.hpp with the pools; `Proof/PsvPoolIter.lean`
carries the simulation up to the iterator, and the theorems `C57_…_pool` to `C60_…_pool` state the results for it.  `P2Iter` is P2.cpp with these iterator
objects instead of the contract (`C11_iterators`); `GenIter`, `PiIter` and `MainIter` do the same for all other functions that
use primes, up to `main` (C74).  A function of these models takes `H : Heaps`, which says what `new` returns to each of the
iterators it creates; `Proof/GenIter.lean` defines what it means that such a function does what the function with the list of
primes does (`Ref`).  The pools of one
generator are described separately, since chunks of different pools are disjoint; destructors are not modelled.
Simplifications: a pointer past the end of the sieve is an
index; the loops of EratSmall and EratMedium, unrolled by hand in the source, are tables of the same steps; the CPU description is a parameter.


The models of the algorithms are without their output.  `Output` repeats the functions that write, with the text; the proof is
that each computes what the function without output computes (`Emits`).  Elapsed times and the clock are parameters.  The calls of
`S2Status::print` by several threads are interleaved arbitrarily at the level of single accesses to its variables, in a
sequentially consistent way; formally these accesses are a data race (finding 17).

`aligned_vector` (include/aligned_vector.hpp) is an array; its padding is not modelled.  `OmpLock` and `TryLock` are part of the
steps of `S2Status::print` in `Output`.

Not modelled: a failure to allocate memory other than that of the memory pools, the other divider types of libdivide; in lib/primesieve the classes `PrimeSieve`, `ParallelSieve`,
`PrintPrimes`, `CpuInfo` and the C interface, which primesum does not call.

## 4. Findings (where the code does not do what the property says)

1. `int256_t::operator*` is wrong if one operand is in `[-2^128, -2^128 + 2^64)` (C34_mul_iff,
   C34_mul_counterexample).  It is reachable: `phi_sum(x, 1)` at `x = 52175271301331128848`; there `pi(x)` and
   `pi_lmo1(x)` are `2^128` too large, for every alpha, thread count and schedule (C01_counterexample,
   C05_counterexample), and `pi` is not monotone (C04_counterexample).  The low 128 bits of the product are always right
   (C34_mul_mod128), so the error of `pi(x)` is a multiple of `2^128` (C72_low128).
   Below `30 * 26087635650665564424` (about `7.8 * 10^20`) exactly 32 results are wrong (C01_exact_partial); beyond, an `x` can only
   be concerned if one of seven quotients of it occurs (`Exceptional`, Proof/Window.lean), which is the case for at most one `x` in
   `3 * 10^8` (C01_almost_all_partial) and for no power of ten or two (C01_powers_of_ten, C01_powers_of_two).
2. `BitSieve::sum` adds in `uint64_t`, which can wrap once the numbers in the sieve exceed `2^58` (C29_overflow).  After
   sieving with 3, 5 and 7 it is exact up to `2^59` (C29_sum_sieved); from `2^60` on the sum of every word is wrong
   (C29_wraps).  `pi` accepts `x` with `x / y` up to about `2^61`; with the default tuning factor `x / y` is below `2^59` up to
   `x = 5 * 10^29` (C01_z_default), while `x` up to `5 * 10^30` are accepted (C71_limit).  The
   low 64 bits of `pi(x)` are right nevertheless (C72_low64).
3. `int256_t`: shifts by 0 or by ≥ 256 (C37_shift_undefined), division with `-2^255` (C35_div_counterexample),
   conversion of some negative values (C37_toSigned_counterexample), output of `-2^255` as `-0`
   (C38_print_counterexample).
4. `pi_lmo2`, `pi_lmo3`, `pi_lmo5` sum special leaves in `int64_t`; the sums leave 63 bits before the result does.
5. `--lmo*` truncates `x < -2^63` to 64 bits instead of printing 0 or an error: `--lmo --number=-18446744073709551611`
   prints 10 (C42_counterexample).
6. The calculator does not detect signed overflow and bad shift counts (C40_overflow_first, C40_total).
7. Expressions that do not start with a digit, e.g. `(1+2)`, print the help; `--lmo6` is `--lmo` (examples in
   Props/Main.lean).
8. The tables of `generate_primes`, `generate_n_primes`, `generate_pi`, `generate_moebius` and `generate_lpf` have
   `int32_t` entries, the arguments are `int64_t`.  `phi(x, a)` and `phi_sum(x, a)` fail once `2147483659`, the first
   prime above `2^31`, is among the first `a` primes (C18_phi_limit, C17_phi_sum_limit), `pi_legendre(x)` from
   `x = 2147483659²`, about `2^62`, on (C19_pi_legendre_limit), and `pi_lmo_parallel1(x)` if `y ≥ 2147483659`, which a
   large `--alpha` produces for `x > 2^62` (C10_limit).
9. `S1(x, y, c)` with `x < 2^63` and `y > 2^31.5` overflows `int64_t` in `square_free * primes[b]` (C12_limit).  `pi`
   only calls it with `y ≤ √x`.
10. `S2_hard` with `y < 2^16` stores the primes up to `z / √y` as `uint32_t`; those above `2^32` are truncated.  This
   is harmless because only primes `≤ y` are read (part of C15).
11. primesieve's `store_n_primes` throws if the prime *after* the requested ones is not below `2^64`, although it has all
   the requested ones (C59_store_n_primes).  Not reachable from primesum.
12. `P2(x, y)` fails if `x / max(y, 1)` does not fit `int64_t` (C11_limit); `pi` rejects such `x`.
13. `P2_OpenMP_thread` computes `(int64_t) max(x / z, y)` after the 128-bit division; for `x / z ≥ 2^63` the value is
   truncated.  This is harmless: the primes that the loop then looks at fail its condition (`walk_far`, part of C11).
14. `phi` in `pi_lmo2`, `pi_lmo3` and `pi_lmo5` is an `int64_t`, a sum of numbers below `x / y`.  It is proved to fit for
   `x < 2^38`, which covers every `x` whose result fits; beyond that the only effect in the model is the error
   `overflow` (`Proof/LmoRef.lean`: the run at 63 bits agrees with the run at 127 bits or overflows).
15. `prime * high` in `pi_lmo_parallel1` is an `int64_t` product although `x` is an `int128_t`.  The theorems have
   `x < 2^63`, which is all that the program passes.
16. `set_alpha(NaN)` is not excluded by any comparison: `in_between` returns it, and `pi(x)` converts it to an integer in
   `get_max_x`, which is undefined (C68_nan).  On the command line it depends on the C++ library whether `--alpha=nan` is
   rejected (`istream >> double`; libstdc++ rejects it).
17. `S2Status::is_print` releases its lock when it returns, so the updates of `time_` and `percent_` in `S2Status::print` are not
   protected (a data race); with two threads the percentage shown can go back (C69_race).
18. `get_status_precision` compares `x` as a `double`: from `x = 10^23 - 2^24` on two digits are shown, from
   `10^21 - 2^16` on one (C56_status_precision_default).
19. The help screen (and the README) promise `x <= 10^31`.  With the default tuning factor `get_max_x` is about `5.5 * 10^30` there:
   numbers from `6 * 10^30` on are rejected (C71_rejected), numbers up to `5 * 10^30` are not (C71_limit).  With `--alpha=202` or
   more, `10^31` is accepted (C71_alpha).
20. `--help` and `--version` exit with code 1, like an error (C71_asked).
21. `sum_bits` (src/BitSieve.cpp:98-106) reads `uint64_t` objects through a `const uint16_t*`, which the aliasing rules of C++ do
    not allow, and relies on a little-endian machine.  The model takes the value a compiler gives that permits such accesses.
22. An exception may not leave an OpenMP parallel region.  The prime iterators in the threads of P2.cpp, FactorTable.hpp and
   S2_trivial.cpp, and all vectors allocated in threads, can throw `std::bad_alloc` there; then the program is terminated
   instead of printing "failed to allocate memory" (src/app/main.cpp:194-199).  In the models of C11_iterators and C74 this is the
   outcome `terminated` (`region` in Model/Omp.lean).

## 5. How the main results are proved

* Arithmetic (C32–C38, C46–C49): word-level model = integer arithmetic modulo `2^k`; counterexamples by evaluation in the kernel.
* Tables (C20–C31): loop invariants; finite tables are evaluated in the kernel and extended by periodicity.
* `phi`, `phi_sum` (C17, C18): induction on `a`; the cache is part of the state with an invariant.
* Special leaves (C13–C16): every loop is reduced to a sum over a finite set of leaves; the sets partition
  (C16); the segmented sieve with the binary indexed tree and with `BitSieve` counts the same numbers
  (`Proof/SegSieve`, `Segment`, `Core`); the load balancer yields consecutive
  intervals for all measured times (C45); that rests on `max`, `min` and `in_between` having a finite bound as one argument,
  whatever the other is (`Proof/Dbl.lean`).
* `pi` (C01–C04) and LMO (C05–C10): the parts plus the identity `primeSum_eq` (Meissel–Lehmer for sums of primes).
* Calculator (C39, C40): the parser is sound and complete for the documented grammar, which is a separate inductive
  specification; it always stops.
* Program (C41, C42, C53–C55): `Spec.Accepted` describes the accepted argument vectors; `main` prints the decimal
  notation of the specified sum.
* primesieve (C57–C61): a sieving prime is described by a position in the wheel (`At`, `State`); each crossing-off
  algorithm removes exactly multiples and misses none in its segment (`Crossed`), so that a segment holds exactly the
  primes (`Seg`); the buffers are described by the list of numbers they enumerate (`Lst`); the sieving primes come
  from a second, smaller sieve that is always far enough ahead (`SPInv`).

## 6. Tests of the theorems

`tools/seed.py` applies realistic bugs to the model in a scratch copy and records which theorems fail
(`seeded/LOG.jsonl`).  Bugs that were not detected led to the theorems listed under `theorems_tightened`.
