import Verif.Model.Res
import Verif.Model.Omp
import Verif.Model.Generate
import Verif.Model.Roots
import Verif.Model.Libdivide
import Verif.Model.Width

/-!
# Model of src/deleglise-rivat/S2_easy.cpp and S2_easy_libdivide.cpp

The two files contain the same algorithm; they differ in how `x2` is divided by a prime, which is the
parameter `dv b l` (division of `x2 = x / primes[b]` by `primes[l]`).  `isqrt` and `iroot<3>` are `Nat.sqrt` and
`iroot 3` (properties C32).  The `int64_t` variables are checked; so are the sums and products of type `PS`, which has
`w` bits (`uint64_t` for `y < 2^32`, `int128_t` else).  `S2Status::print` (progress output) is left out.
-/

namespace PS
namespace S2Easy
open Res

variable {R : Type} [Res R]

/-- src/deleglise-rivat/S2_easy.cpp:77-87 (S2_easy_libdivide.cpp:96-106 and :124-134): one iteration of the
loop over the clustered easy leaves. -/
def clusteredStep (w : ℕ) (dv : ℕ → M ℕ) (sums : Vec ℕ) (pi : PiTable) (b prime minClustered : ℕ) (l : ℕ) (acc : R) :
    M (ℕ × R) := do
  let q ← dv l
  let xn ← fit 63 q
  let pixn ← pi.at xn
  let phiXn : ℤ := (pixn : ℤ) - b + 2
  let s ← sums.rd pixn
  let sb ← sums.rdI ((b : ℤ) - 1)
  let s1 ← fit w (s + 1)
  let phiXnSum ← csub s1 sb
  let k : ℤ := b + phiXn - 1
  if k < 0 then .error .neg
  else
    let q ← dv k.toNat
    let xm ← fit 63 q
    let xm := max xm minClustered
    let l2 ← pi.at xm
    let sl ← sums.rd l
    let sl2 ← sums.rd l2
    let d ← csub sl sl2
    pure (l2, add acc (mul (mul (ofInt phiXnSum) (ofInt prime)) (ofInt d)))

/-- src/deleglise-rivat/S2_easy.cpp:92-97 (S2_easy_libdivide.cpp:111-116 and :139-144): one iteration of the
loop over the sparse easy leaves. -/
def sparseStep (w : ℕ) (dv : ℕ → M ℕ) (primes sums : Vec ℕ) (pi : PiTable) (b prime : ℕ) (l : ℕ) (acc : R) : M R := do
  let q ← dv l
  let xn ← fit 63 q
  let pixn ← pi.at xn
  let s ← sums.rd pixn
  let sb ← sums.rdI ((b : ℤ) - 1)
  let s1 ← fit w (s + 1)
  let phi ← csub s1 sb
  let pl ← primes.rd l
  let n ← fit w (prime * pl)
  pure (add acc (mul (ofInt phi) (ofInt (n : ℤ))))

/-- src/deleglise-rivat/S2_easy.cpp:59-97 (S2_easy_libdivide.cpp:76-145): iteration `b` of the parallel loop. -/
def body (w : ℕ) (dv : ℕ → ℕ → M ℕ) (x y z : ℕ) (primes sums : Vec ℕ) (pi : PiTable) (b : ℕ) (acc : R) : M R := do
  let prime ← primes.rd b
  let x2 ← cdiv x prime
  let q ← cdiv x2 prime
  let minTrivial := min q y
  let minClustered ← fit 63 (Nat.sqrt x2)
  let minSparse ← cdiv z prime
  let yp ← cdiv y prime
  let minHard := max yp prime
  let minClustered := (inBetween minHard minClustered y).toNat
  let minSparse := (inBetween minHard minSparse y).toNat
  let l ← pi.at minTrivial
  let piMinClustered ← pi.at minClustered
  let piMinSparse ← pi.at minSparse
  let (l, acc) ← loop (l + 1) (l, acc) (fun (l, acc) =>
    if l > piMinClustered then do
      let r ← clusteredStep w (dv x2) sums pi b prime minClustered l acc
      pure (.next r)
    else pure (.done (l, acc)))
  forDown l piMinSparse acc (fun l acc => sparseStep w (dv x2) primes sums pi b prime l acc)

/-- src/deleglise-rivat/S2_easy.cpp:36-104 (S2_easy_libdivide.cpp:53-152): `S2_easy_OpenMP` with division `dv`. -/
def omp (R : Type) [Res R] (sched : Scheduler) (w : ℕ) (dv : ℕ → ℕ → M ℕ) (x y z c : ℕ) (primes sums : Vec ℕ) : M R := do
  let x13 := iroot 3 x
  let pi ← PiTable.build y
  let piSqrty ← pi.at (Nat.sqrt y)
  let piX13 ← pi.at x13
  ompFor add (ofInt 0) (ofInt 0) () (sched 4 (max c piSqrty + 1) (piX13 + 1)) (fun b _ acc => do
    let r ← body w dv x y z primes sums pi b acc
    pure ((), r))

/-- src/deleglise-rivat/S2_easy.cpp:79, :82, :94: `fast_div(x2, primes[l])` with a 16 byte dividend. -/
def dvFast (primes : Vec ℕ) (x2 l : ℕ) : M ℕ := do
  let p ← primes.rd l
  fastDivWide 16 x2 p

/-- src/deleglise-rivat/S2_easy_libdivide.cpp:41-48: `libdivide_divisors`; the default constructed divider
with index 0 is uninitialised. -/
def libdivideDivisors (primes : Vec ℕ) : M (Vec Libdivide.Divider) :=
  forUp 1 primes.size (Vec.mk' 1 default) (fun i v => do
    let p ← primes.rd i
    let d ← Libdivide.gen p
    pure (v.push d))

/-- src/deleglise-rivat/S2_easy_libdivide.cpp:33-37, :90 (`is_libdivide`), :98, :101, :113 (libdivide)
and :126, :129, :141 (plain division).  Reading the uninitialised divider is an error. -/
def dvLib (primes : Vec ℕ) (fastdiv : Vec Libdivide.Divider) (x2 l : ℕ) : M ℕ :=
  if x2 ≤ 2 ^ 64 - 1 then
    if l = 0 then .error .oob
    else do
      let d ← fastdiv.rd l
      pure (Libdivide.run x2 d)
  else do
    let p ← primes.rd l
    cdiv x2 p

/-- src/deleglise-rivat/S2_easy.cpp:110-145: `S2_easy(x, y, z, c, threads)`. -/
def s2Easy (sched : Scheduler) (x y z c : ℕ) : M I256 := do
  let primes ← generatePrimesT (if y ≤ 2 ^ 32 - 1 then 32 else 63) y
  let sums ← generatePrimeSums (if y ≤ 2 ^ 32 - 1 then 64 else 127) y
  if y ≤ 2 ^ 32 - 1 then
    if x ≤ 2 ^ 64 - 1 then do
      let r ← omp W128 sched 64 (dvFast primes) x y z c primes sums
      pure (toI256 r)
    else do
      let r ← omp I256 sched 64 (dvFast primes) x y z c primes sums
      pure (toI256 r)
  else do
    let r ← omp I256 sched 127 (dvFast primes) x y z c primes sums
    pure (toI256 r)

/-- src/deleglise-rivat/S2_easy_libdivide.cpp:158-193: `S2_easy(x, y, z, c, threads)`. -/
def s2EasyLib (sched : Scheduler) (x y z c : ℕ) : M I256 := do
  let primes ← generatePrimesT (if y ≤ 2 ^ 32 - 1 then 32 else 63) y
  let sums ← generatePrimeSums (if y ≤ 2 ^ 32 - 1 then 64 else 127) y
  let fastdiv ← libdivideDivisors primes
  if y ≤ 2 ^ 32 - 1 then
    if x ≤ 2 ^ 64 - 1 then do
      let r ← omp W128 sched 64 (dvLib primes fastdiv) x y z c primes sums
      pure (toI256 r)
    else do
      let r ← omp I256 sched 64 (dvLib primes fastdiv) x y z c primes sums
      pure (toI256 r)
  else do
    let r ← omp I256 sched 127 (dvLib primes fastdiv) x y z c primes sums
    pure (toI256 r)

end S2Easy
end PS
