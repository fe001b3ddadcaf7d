import Verif.Model.Pi
import Verif.Model.P2Iter

/-!
# `pi(x, threads)` with the primesieve library inside

The functions of Model/S1.lean, Model/S2Trivial.lean, Model/S2Easy.lean, Model/S2Hard.lean and Model/Pi.lean that get
primes from the primesieve library, here with the library of Model/PsvPoolIter.lean.  The functions called inside the
loops are unchanged.  `H` says what `new` does for the memory pools of the library (Model/GenIter.lean).
-/

namespace PS
open Res

/-- src/S1.cpp:59-79: `S1_OpenMP_master`. -/
def s1MasterIt (R : Type) [Res R] (env : Psv.Env) (H : Heaps) (sched : Scheduler) (xb yb x y c : ℕ) : M R := do
  let primes ← generatePrimesIt env H yb y
  let s1 ← phiSumR (R := R) x c
  ompFor add (ofInt 0) s1 () (sched 1 (c + 1) primes.size) (fun b _ s1 => do
    let p ← primes.rd b
    let xp ← cdiv x p
    let ph ← phiSumR (R := R) xp c
    let s1 := sub s1 (mul ph (ofInt p))
    let r ← s1Loop xb x y c primes 1 (b + 1) p (ofInt 0)
    pure ((), add s1 r))

/-- src/S1.cpp:85-111: `S1(x, y, c, threads)`. -/
def s1It (env : Psv.Env) (H : Heaps) (sched : Scheduler) (x y c : ℕ) : M I256 :=
  if y ≤ 2 ^ 32 - 1 then
    if x ≤ 2 ^ 63 - 1 then do
      let r ← s1MasterIt W128 env H sched 63 32 x y c
      pure (toI256 r)
    else do
      let r ← s1MasterIt I256 env H sched 127 32 x y c
      pure (toI256 r)
  else do
    let r ← s1MasterIt I256 env H sched 127 63 x y c
    pure (toI256 r)

namespace S2Trivial

variable {R : Type} [Res R]

/-- src/deleglise-rivat/S2_trivial.cpp:48-63: iteration `i` of the parallel loop.  The stop hint is converted to
`uint64_t`. -/
def threadIt (env : Psv.Env) (H : Heaps) (x y sqrtz primec : ℕ) (threads : ℤ) (pi : PiTable) (sums : Vec ℕ) (i : ℕ) (acc : R) :
    M R := do
  let start ← fitI 63 ((max primec sqrtz : ℕ) + 1)
  let interval ← ceilDivI (y - start) threads
  let d ← fitI 63 (interval * i)
  let start ← fitI 63 (start + d)
  let e ← fitI 63 (start + interval)
  let stop := min e y
  if start - 1 < 0 then .error .neg
  else Psv.Mem.pIterFor env (Psv.Mem.PIter.make (H []) (start - 1).toNat (stop % 2 ^ 64).toNat) (stop - 1).toNat acc (leaf x y pi sums)

/-- src/deleglise-rivat/S2_trivial.cpp:29-66: `S2_trivial_OpenMP`. -/
def ompIt (R : Type) [Res R] (env : Psv.Env) (H : Heaps) (sched : Scheduler) (x y z c : ℕ) (sums : Vec ℕ) (threads : ℤ) :
    M R := do
  let threads ← idealNumThreads threads y (10 ^ 7)
  let pi ← PiTable.buildIt env (H.sub 0) y
  let sqrtz := Nat.sqrt z
  let primec ← nthPrime c
  ompFor add (ofInt 0) (ofInt 0) () (sched 3 0 threads.toNat) (fun i _ acc => do
    let r ← threadIt env ((H.sub 1).sub i) x y sqrtz primec threads pi sums i acc
    pure ((), r))

/-- src/deleglise-rivat/S2_trivial.cpp:72-100: `S2_trivial(x, y, z, c, threads)`. -/
def s2TrivialIt (env : Psv.Env) (H : Heaps) (sched : Scheduler) (x y z c : ℕ) (threads : ℤ) : M I256 := do
  let sums ← generatePrimeSumsIt env (H.sub 0) (if y ≤ 2 ^ 32 - 1 then 64 else 127) y
  ompIt I256 env (H.sub 1) sched x y z c sums threads

end S2Trivial

namespace S2Easy

/-- src/deleglise-rivat/S2_easy.cpp:36-104 (S2_easy_libdivide.cpp:53-152): `S2_easy_OpenMP` with division `dv`. -/
def ompIt (R : Type) [Res R] (env : Psv.Env) (H : Heaps) (sched : Scheduler) (w : ℕ) (dv : ℕ → ℕ → M ℕ) (x y z c : ℕ)
    (primes sums : Vec ℕ) : M R := do
  let x13 := iroot 3 x
  let pi ← PiTable.buildIt env H y
  let piSqrty ← pi.at (Nat.sqrt y)
  let piX13 ← pi.at x13
  ompFor add (ofInt 0) (ofInt 0) () (sched 4 (max c piSqrty + 1) (piX13 + 1)) (fun b _ acc => do
    let r ← body w dv x y z primes sums pi b acc
    pure ((), r))

/-- src/deleglise-rivat/S2_easy.cpp:110-145: `S2_easy(x, y, z, c, threads)`. -/
def s2EasyIt (env : Psv.Env) (H : Heaps) (sched : Scheduler) (x y z c : ℕ) : M I256 := do
  let primes ← generatePrimesIt env (H.sub 0) (if y ≤ 2 ^ 32 - 1 then 32 else 63) y
  let sums ← generatePrimeSumsIt env (H.sub 1) (if y ≤ 2 ^ 32 - 1 then 64 else 127) y
  if y ≤ 2 ^ 32 - 1 then
    if x ≤ 2 ^ 64 - 1 then do
      let r ← ompIt W128 env (H.sub 2) sched 64 (dvFast primes) x y z c primes sums
      pure (toI256 r)
    else do
      let r ← ompIt I256 env (H.sub 2) sched 64 (dvFast primes) x y z c primes sums
      pure (toI256 r)
  else do
    let r ← ompIt I256 env (H.sub 2) sched 127 (dvFast primes) x y z c primes sums
    pure (toI256 r)

/-- src/deleglise-rivat/S2_easy_libdivide.cpp:158-193: `S2_easy(x, y, z, c, threads)`. -/
def s2EasyLibIt (env : Psv.Env) (H : Heaps) (sched : Scheduler) (x y z c : ℕ) : M I256 := do
  let primes ← generatePrimesIt env (H.sub 0) (if y ≤ 2 ^ 32 - 1 then 32 else 63) y
  let sums ← generatePrimeSumsIt env (H.sub 1) (if y ≤ 2 ^ 32 - 1 then 64 else 127) y
  let fastdiv ← libdivideDivisors primes
  if y ≤ 2 ^ 32 - 1 then
    if x ≤ 2 ^ 64 - 1 then do
      let r ← ompIt W128 env (H.sub 2) sched 64 (dvLib primes fastdiv) x y z c primes sums
      pure (toI256 r)
    else do
      let r ← ompIt I256 env (H.sub 2) sched 64 (dvLib primes fastdiv) x y z c primes sums
      pure (toI256 r)
  else do
    let r ← ompIt I256 env (H.sub 2) sched 127 (dvLib primes fastdiv) x y z c primes sums
    pure (toI256 r)

end S2Easy

namespace S2Hard

/-- src/deleglise-rivat/S2_hard.cpp:316-381: `S2_hard_OpenMP_master`. -/
def masterIt (R : Type) [Res R] [Inhabited R] (env : Psv.Env) (H : Heaps) (e : Env) (x y z c : ℕ) (primes factors : Vec ℕ)
    (threads : ℤ) : M R := do
  let threads ← idealNumThreads threads z (10 ^ 5)
  let limit ← fit 63 (z + 1)
  let maxPrime ← cdiv z (Nat.sqrt y)
  let lb ← LB.init e.log x y z threads.toNat
  let pi ← PiTable.buildIt env H maxPrime
  let n ← pi.at (Nat.sqrt z)
  let alpha ← getAlphaXY x y
  masterLoop 127 e.sched e.log e.times limit (fun segmentSize segmentsPerThread i low =>
      thread R (fewLeaves y alpha) x y z c primes factors pi segmentSize segmentsPerThread i low limit)
    ⟨0, 1, threads.toNat, lb.minSize, 1, lb, ofInt 0, Vec.mk' (n + 1) 0⟩

/-- src/deleglise-rivat/S2_hard.cpp:387-424: `S2_hard`.  `generate_primes<uint32_t>` truncates the larger primes. -/
def s2HardIt (env : Psv.Env) (H : Heaps) (e : Env) (x y z c : ℕ) (threads : ℤ) : M I256 := do
  if y ≤ FactorTable.max' (2 ^ 16 - 1) then do
    let factors ← FactorTable.buildIt env (H.sub 0) (2 ^ 16 - 1) e.merge y threads
    let maxPrime ← cdiv z (Nat.sqrt y)
    let primes ← Psv.Mem.pStorePrimes env (H [1]) 0 maxPrime ⟨#[0]⟩
    let primes := truncVec 32 primes
    if x ≤ 2 ^ 63 - 1 then do
      let r ← masterIt W128 env (H.sub 2) e x y z c primes factors threads
      pure (toI256 r)
    else do
      let r ← masterIt I256 env (H.sub 2) e x y z c primes factors threads
      pure (toI256 r)
  else do
    let factors ← FactorTable.buildIt env (H.sub 0) (2 ^ 32 - 1) e.merge y threads
    let maxPrime ← cdiv z (Nat.sqrt y)
    let primes ← generatePrimesIt env (H.sub 1) 63 maxPrime
    let r ← masterIt I256 env (H.sub 2) e x y z c primes factors threads
    pure (toI256 r)

end S2Hard

namespace Pi

/-- `S2_easy`: src/deleglise-rivat/S2_easy_libdivide.cpp or S2_easy.cpp. -/
def s2EasyIt (env : Psv.Env) (H : Heaps) (e : Env) (x y z c : ℕ) : M I256 :=
  if e.libdivide then S2Easy.s2EasyLibIt env H e.schedEasy x y z c else S2Easy.s2EasyIt env H e.schedEasy x y z c

/-- src/deleglise-rivat/pi_deleglise_rivat_parallel1.cpp:33-45: `S2`. -/
def s2It (env : Psv.Env) (H : Heaps) (e : Env) (x y z c : ℕ) (threads : ℤ) : M I256 := do
  let s2Trivial ← S2Trivial.s2TrivialIt env (H.sub 0) e.schedTrivial x y z c threads
  let s2Easy ← s2EasyIt env (H.sub 1) e x y z c
  let s2Hard ← S2Hard.s2HardIt env (H.sub 2) e.hard x y z c threads
  pure (I256.add (I256.add s2Trivial s2Easy) s2Hard)

/-- src/deleglise-rivat/pi_deleglise_rivat_parallel1.cpp:55-82: `pi_deleglise_rivat_parallel1(x, threads)`. -/
def piIt (env : Psv.Env) (H : Heaps) (e : Env) (tiny : Vec PhiTiny.Tab) (x : ℤ) (threads : ℤ) : M I256 := do
  if x < 2 then pure (I256.ofInt 0)
  else do
    let x := x.toNat
    let alpha ← getAlpha e x
    let limit ← getMaxX e.lib alpha
    if x > limit then .error (.thrown ("pi(x): x must be <= " ++ toString limit))
    else do
      let x13 ← irootM 3 e.est3 x
      let y ← yOf x13 alpha
      let z ← cdiv x y
      let c ← PhiTiny.getC y
      let p2 ← P2.p2It env (H.sub 0) tiny e.schedP2 e.timeP2 threads x y
      let s1 ← s1It env (H.sub 1) e.schedS1 x y c
      let s2 ← s2It env (H.sub 2) e x y z c threads
      let phi := I256.add s1 s2
      let t ← P2.primeSumTinyIt env (H [3]) y
      pure (I256.sub (I256.sub (I256.add phi (I256.ofInt t)) (I256.ofInt 1)) p2)

end Pi
end PS
