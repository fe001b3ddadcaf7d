import Verif.Model.Res
import Verif.Model.Omp
import Verif.Model.Generate
import Verif.Model.Width

/-!
# Model of src/deleglise-rivat/S2_trivial.cpp and src/nth_prime.cpp

`isqrt` is `Nat.sqrt` (property C32).  The prime sums are `uint64_t` for `y < 2^32`, else `int128_t`.  A value that
does not fit the type of its variable (`int64_t`, `prime * prime`: `int128_t`) is the error `overflow`.
-/

namespace PS
open Res

/-- src/nth_prime.cpp:20. -/
def nthPrimeTab : Vec ℕ := ⟨#[0, 2, 3, 5, 7, 11, 13, 17, 19, 23]⟩

/-- src/nth_prime.cpp:26-35. -/
def nthPrime (n : ℕ) : M ℕ :=
  if n ≥ 10 then .error (.thrown "nth_prime(n): n must be < 10")
  else if n < 2 then nthPrimeTab.rd 1
  else nthPrimeTab.rd n

/-- include/imath.hpp:30-35 for an `int64_t` dividend (C++ division truncates). -/
def ceilDivI (a b : ℤ) : M ℤ := do
  let s ← fitI 63 (a + b)
  if b = 0 then .error .divZero else pure (Int.tdiv (s - 1) b)

namespace S2Trivial

variable {R : Type} [Res R]

/-- src/deleglise-rivat/S2_trivial.cpp:57-62: the loop body for one prime. -/
def leaf (x y : ℕ) (pi : PiTable) (sums : Vec ℕ) (p : ℕ) (acc : R) : M R := do
  let pp ← fit 127 (p * p)
  let q ← cdiv x pp
  let xn ← fit 63 (max q p)
  let piy ← pi.at y
  let a ← sums.rd piy
  let pixn ← pi.at xn
  let b ← sums.rd pixn
  let diff ← csub a b
  pure (add acc (mul (ofInt diff) (ofInt p)))

/-- src/deleglise-rivat/S2_trivial.cpp:48-63: iteration `i` of the parallel loop.  A negative iterator
position would be converted to a huge `uint64_t`; the model reports it. -/
def thread (x y sqrtz primec : ℕ) (threads : ℤ) (pi : PiTable) (sums : Vec ℕ) (i : ℕ) (acc : R) :
    M R := do
  let start ← fitI 63 ((max primec sqrtz : ℕ) + 1)
  let interval ← ceilDivI (y - start) threads
  let d ← fitI 63 (interval * i)
  let start ← fitI 63 (start + d)
  let e ← fitI 63 (start + interval)
  let stop := min e y
  if start - 1 < 0 then .error .neg
  else forPrimes (start - 1).toNat (stop - 1).toNat acc (leaf x y pi sums)

/-- src/deleglise-rivat/S2_trivial.cpp:29-66: `S2_trivial_OpenMP`; `R` is `int256_t`. -/
def omp (R : Type) [Res R] (sched : Scheduler) (x y z c : ℕ) (sums : Vec ℕ) (threads : ℤ) : M R := do
  let threads ← idealNumThreads threads y (10 ^ 7)
  let pi ← PiTable.build y
  let sqrtz := Nat.sqrt z
  let primec ← nthPrime c
  ompFor add (ofInt 0) (ofInt 0) () (sched 3 0 threads.toNat) (fun i _ acc => do
    let r ← thread x y sqrtz primec threads pi sums i acc
    pure ((), r))

/-- src/deleglise-rivat/S2_trivial.cpp:72-100: `S2_trivial(x, y, z, c, threads)`. -/
def s2Trivial (sched : Scheduler) (x y z c : ℕ) (threads : ℤ) : M I256 := do
  let sums ← generatePrimeSums (if y ≤ 2 ^ 32 - 1 then 64 else 127) y
  omp I256 sched x y z c sums threads

end S2Trivial
end PS
