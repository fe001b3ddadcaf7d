import Verif.Model.Res
import Verif.Model.Omp
import Verif.Model.Break
import Verif.Model.Width
import Verif.Model.Generate
import Verif.Model.FactorTable
import Verif.Model.Wheel
import Verif.Model.BitSieve
import Verif.Model.BinaryIndexedTree
import Verif.Model.S2LoadBalancer

/-!
# Model of src/deleglise-rivat/S2_hard.cpp

`isqrt` is `Nat.sqrt` (C32).  The computations with `double` values are those of
`Model/Dbl.lean`.  The two branches of the segment loop (lines 148-225 and 226-300) contain the same
statements except for how the unsieved numbers are summed; the model has one copy with a parameter `few`.
The threads (lines 350-357) write to different elements of `phi` and `mu_sum` and to nothing else, so the model
computes their results one after the other and only keeps the reduction over `s2_hard` in an arbitrary order.
-/

namespace PS
namespace S2Hard
open Res

variable {R : Type} [Res R] [Inhabited R]

instance : Inhabited I256 := ⟨I256.ofInt 0⟩

/-- The variables of `S2_hard_OpenMP_thread` that change while a segment is processed. -/
structure St (R : Type) where
  sieve : BitSieve
  wheel : Vec Wheel.Item
  phi : Vec ℤ
  muSum : Vec R
  s2 : R
  tree : BIT
  /-- `sum_low_high` -/
  slh : ℤ

/-- src/deleglise-rivat/S2_hard.cpp:39-57: `cross_off`; returns the sum of the numbers crossed off. -/
def crossOff (sieve : BitSieve) (low high prime : ℕ) (w : Wheel.Item) : M (ℤ × BitSieve × Wheel.Item) :=
  loop (high + 1) ((0 : ℤ), sieve, w) (fun ((sum, sieve, w) : ℤ × BitSieve × Wheel.Item) =>
    if w.nextMultiple < high then do
      let d ← csub w.nextMultiple low
      let bit ← sieve.at_ d
      let sum ← fitI 127 (sum + (w.nextMultiple : ℤ) * (if bit then 1 else 0))
      let sieve ← sieve.unset d
      let w ← Wheel.step prime w
      pure (.next (sum, sieve, w))
    else pure (.done (sum, sieve, w)))

/-- src/deleglise-rivat/S2_hard.cpp:63-83: `cross_off` with the binary indexed tree. -/
def crossOffTree (sieve : BitSieve) (low high prime : ℕ) (w : Wheel.Item) (tree : BIT) :
    M (BIT × BitSieve × Wheel.Item) :=
  loop (high + 1) (tree, sieve, w) (fun ((tree, sieve, w) : BIT × BitSieve × Wheel.Item) =>
    if w.nextMultiple < high then do
      let d ← csub w.nextMultiple low
      let bit ← sieve.at_ d
      let (tree, sieve) ← (if bit then do
          let sieve ← sieve.unset d
          let tree ← tree.update w.nextMultiple low
          pure (tree, sieve)
        else pure (tree, sieve) : M (BIT × BitSieve))
      let w ← Wheel.step prime w
      pure (.next (tree, sieve, w))
    else pure (.done (tree, sieve, w)))

/-- src/deleglise-rivat/S2_hard.cpp:179-181, :214-216 (`few`) and :259-260, :290-291 (tree): the sum of the
unsieved numbers up to position `stop`; returns the new values of `sum` and `start`. -/
def leafSum (few : Bool) (st : St R) (low high start stop : ℕ) (sum : ℤ) : M (ℤ × ℕ) :=
  if few then do
    let s ← st.sieve.sum6 start stop low high sum st.slh
    let sum ← fitI 127 (sum + s)
    pure (sum, stop + 1)
  else do
    let s ← st.tree.sum stop
    pure (s, start)

/-- src/deleglise-rivat/S2_hard.cpp:189-190, :222-223 (`few`) and :268-269, :297-298 (tree): the end of the
processing of one prime. -/
def finish (few : Bool) (low high prime b : ℕ) (st : St R) : M (St R) := do
  let phib ← st.phi.rd b
  let w ← st.wheel.rd b
  if few then do
    let phib ← fitI 127 (phib + st.slh)
    let phi ← st.phi.wr b phib
    let (sum, sieve, w) ← crossOff st.sieve low high prime w
    let wheel ← st.wheel.wr b w
    let slh ← fitI 127 (st.slh - sum)
    pure { st with phi := phi, sieve := sieve, wheel := wheel, slh := slh }
  else do
    let d ← csub (high - 1) low
    let s ← st.tree.sum d
    let phib ← fitI 127 (phib + s)
    let phi ← st.phi.wr b phib
    let (tree, sieve, w) ← crossOffTree st.sieve low high prime w st.tree
    let wheel ← st.wheel.wr b w
    pure { st with phi := phi, sieve := sieve, wheel := wheel, tree := tree }

/-- The variables changed by the loops over the leaves of one prime. -/
structure LeafSt (R : Type) where
  start : ℕ
  sum : ℤ
  s2 : R
  muSum : Vec R

/-- src/deleglise-rivat/S2_hard.cpp:172-187 and :253-266: one iteration of the loop over `m`. -/
def leafA (few : Bool) (factors : Vec ℕ) (low high prime x2 b : ℕ) (st : St R) (m : ℕ) (ls : LeafSt R) :
    M (LeafSt R) := do
  let lpf ← FactorTable.lpf factors m
  if prime < lpf then do
    let fm ← FactorTable.getNumber m
    let xn ← fastDivWide 16 x2 fm
    let stop ← csub xn low
    let (sum, start) ← leafSum few st low high ls.start stop ls.sum
    let phib ← st.phi.rd b
    let phiXn ← fitI 127 (phib + sum)
    let mum ← FactorTable.mu factors m
    let pm ← fitI 127 (mum * fm * prime)
    let pmul : R := ofInt pm
    let mub ← ls.muSum.rd b
    let muSum ← ls.muSum.wr b (sub mub pmul)
    pure ⟨start, sum, sub ls.s2 (mul pmul (ofInt phiXn)), muSum⟩
  else pure ls

/-- src/deleglise-rivat/S2_hard.cpp:156-191 and :239-270: iteration `b` of the first loop; `true` stands for
`goto next_segment`. -/
def bodyA (few : Bool) (x y : ℕ) (primes factors : Vec ℕ) (low high b : ℕ) (st : St R) : M (Bool × St R) := do
  let prime ← primes.rd b
  let x2 ← cdiv x prime
  let qh ← fastDivWide 16 x2 high
  let x2DivHigh := min qh y
  let yp ← cdiv y prime
  let minM := max x2DivHigh yp
  let ql ← fastDivWide 16 x2 low
  let maxM := min ql y
  if prime ≥ maxM then pure (true, st)
  else do
    let minM ← FactorTable.getIndex minM
    let maxM ← FactorTable.getIndex maxM
    let ls ← forDown maxM minM (LeafSt.mk 0 0 st.s2 st.muSum) (fun m ls =>
      leafA few factors low high prime x2 b st m ls)
    let st ← finish few low high prime b { st with s2 := ls.s2, muSum := ls.muSum }
    pure (false, st)

/-- src/deleglise-rivat/S2_hard.cpp:210-220 and :287-295: one iteration of the loop over the primes
`primes[l]`; `q` is `primes[l]`. -/
def leafB (few : Bool) (low high prime x2 b : ℕ) (st : St R) (q : ℕ) (ls : LeafSt R) : M (LeafSt R) := do
  let xn ← fastDivWide 16 x2 q
  let stop ← csub xn low
  let (sum, start) ← leafSum few st low high ls.start stop ls.sum
  let phib ← st.phi.rd b
  let phiXn ← fitI 127 (phib + sum)
  let pm ← fitI 127 ((q : ℤ) * prime)
  let pmul : R := ofInt pm
  let mub ← ls.muSum.rd b
  let muSum ← ls.muSum.wr b (add mub pmul)
  pure ⟨start, sum, add ls.s2 (mul pmul (ofInt phiXn)), muSum⟩

/-- src/deleglise-rivat/S2_hard.cpp:196-224 and :275-299: iteration `b` of the second loop. -/
def bodyB (few : Bool) (x y z : ℕ) (primes : Vec ℕ) (pi : PiTable) (low high b : ℕ) (st : St R) :
    M (Bool × St R) := do
  let prime ← primes.rd b
  let x2 ← cdiv x prime
  let ql ← fastDivWide 16 x2 low
  let x2DivLow := min ql y
  let qh ← fastDivWide 16 x2 high
  let x2DivHigh := min qh y
  let zp ← cdiv z prime
  let l ← pi.at (min x2DivLow zp)
  let yp ← cdiv y prime
  let minHard := max x2DivHigh (max yp prime)
  let pl ← primes.rd l
  if prime ≥ pl then pure (true, st)
  else do
    let ls ← loop (l + 1) (l, LeafSt.mk 0 0 st.s2 st.muSum) (fun ((l, ls) : ℕ × LeafSt R) => do
      let pl ← primes.rd l
      if pl > minHard then do
        let ls ← leafB few low high prime x2 b st pl ls
        pure (.next (l - 1, ls))
      else pure (.done ls))
    let st ← finish few low high prime b { st with s2 := ls.s2, muSum := ls.muSum }
    pure (false, st)

/-- src/deleglise-rivat/S2_hard.cpp:139-302: one segment `[low, high)`. -/
def segment (few : Bool) (x y z c : ℕ) (primes factors : Vec ℕ) (pi : PiTable) (piSqrty maxB low high : ℕ)
    (st : St R) : M (St R) := do
  let sieve ← st.sieve.preSieve c low
  let st := { st with sieve := sieve }
  let st ← (if few then do
      let d ← csub (high - 1) low
      let s ← sieve.sum low 0 d
      pure { st with slh := s }
    else do
      let tree ← st.tree.init sieve.size sieve.at_ low
      pure { st with tree := tree } : M (St R))
  let (jump, b, st) ← forBrk (c + 1) (min piSqrty maxB + 1) st (fun b st =>
    bodyA few x y primes factors low high b st)
  if jump then pure st
  else do
    let (_, _, st) ← forBrk b (maxB + 1) st (fun b st => bodyB few x y z primes pi low high b st)
    pure st

/-- What a thread leaves behind: its result, `mu_sum[i]` and `phi[i]`. -/
structure ThreadRes (R : Type) where
  s2 : R
  muSum : Vec R
  phi : Vec ℤ

instance : Inhabited (ThreadRes R) := ⟨⟨default, ⟨#[]⟩, ⟨#[]⟩⟩⟩

/-- src/deleglise-rivat/S2_hard.cpp:121-122, also src/lmo/pi_lmo_parallel1.cpp:76-77: the interval of a thread, the new
values of `low` and `limit`. -/
def interval (segmentSize segmentsPerThread threadNum low limit : ℕ) : M (ℕ × ℕ) := do
  let d ← fit 63 (segmentSize * segmentsPerThread)
  let e ← fit 63 (d * threadNum)
  let low ← fit 63 (low + e)
  let h ← fit 63 (low + d)
  pure (low, min h limit)

/-- src/deleglise-rivat/S2_hard.cpp:104-306: `S2_hard_OpenMP_thread`. -/
def thread (R : Type) [Res R] [Inhabited R] (few : ℕ → ℕ → Bool) (x y z c : ℕ) (primes factors : Vec ℕ) (pi : PiTable)
    (segmentSize segmentsPerThread threadNum low limit : ℕ) : M (ThreadRes R) := do
  let (low, limit) ← interval segmentSize segmentsPerThread threadNum low limit
  let xl ← cdiv x low
  let maxB ← pi.at (min (Nat.sqrt xl) (min (Nat.sqrt z) y))
  let piSqrty ← pi.at (Nat.sqrt y)
  if c > maxB then pure ⟨ofInt 0, ⟨#[]⟩, ⟨#[]⟩⟩
  else do
    let sieve ← BitSieve.mk' segmentSize
    let wheel ← Wheel.build primes (maxB + 1) low
    let st : St R := ⟨sieve, wheel, Vec.mk' (maxB + 1) 0, Vec.mk' (maxB + 1) (ofInt 0), ofInt 0, {}, 0⟩
    let st ← forStep low limit segmentSize st (fun low st => do
      let h ← fit 63 (low + segmentSize)
      let high := min h limit
      segment (few low high) x y z c primes factors pi piSqrty maxB low high st)
    pure ⟨st.s2, st.muSum, st.phi⟩

/-- src/deleglise-rivat/S2_hard.cpp:88-95: `few_leaves(low, high, y, alpha)`. -/
def fewLeaves (y : ℕ) (alpha : Dbl) (low high : ℕ) : Bool :=
  let threshold := ((Dbl.ofInt y).mul alpha).mul alpha.sqrt
  decide (high < y) || threshold.lt (.ofInt low)

/-- The state of the loop of the master (lines 343-378). -/
structure MasterSt (R : Type) where
  iter : ℕ
  low : ℕ
  threads : ℕ
  segmentSize : ℕ
  segmentsPerThread : ℕ
  lb : LB
  s2 : R
  phiTotal : Vec ℤ

/-- src/deleglise-rivat/S2_hard.cpp:367-374: the contribution of the numbers below the interval of a thread; `w` is the
number of value bits of `phi_total`. -/
def reconstruct (w : ℕ) (res : Vec (ThreadRes R)) (threads : ℕ) (s2 : R) (phiTotal : Vec ℤ) : M (R × Vec ℤ) :=
  forUp 0 threads (s2, phiTotal) (fun i ((s2, phiTotal) : R × Vec ℤ) => do
    let r ← res.rd i
    forUp 1 r.phi.size (s2, phiTotal) (fun j ((s2, phiTotal) : R × Vec ℤ) => do
      let m ← r.muSum.rd j
      let t ← phiTotal.rd j
      let p ← r.phi.rd j
      let u ← fitI w (t + p)
      let phiTotal ← phiTotal.wr j u
      pure (add s2 (mul m (ofInt t)), phiTotal)))

/-- src/deleglise-rivat/S2_hard.cpp:345-347, also src/lmo/pi_lmo_parallel1.cpp:204-206: the new values of `threads` and
`segments_per_thread`; the checks are for the sums in `ceil_div` (include/imath.hpp:30-35). -/
def shares (limit low threads segmentSize segmentsPerThread : ℕ) : M (ℕ × ℕ) := do
  let _ ← fit 63 (limit - low + segmentSize)
  let segments ← ceilDiv (limit - low) segmentSize
  let threads := (inBetween 1 threads segments).toNat
  let _ ← fit 63 (segments + threads)
  let q ← ceilDiv segments threads
  pure (threads, (inBetween 1 segmentsPerThread q).toNat)

/-- src/deleglise-rivat/S2_hard.cpp:376, also src/lmo/pi_lmo_parallel1.cpp:235. -/
def nextLow (low threads segmentSize segmentsPerThread : ℕ) : M ℕ := do
  let d ← fit 63 (segmentsPerThread * threads)
  let d ← fit 63 (d * segmentSize)
  fit 63 (low + d)

/-- src/deleglise-rivat/S2_hard.cpp:343-378, also src/lmo/pi_lmo_parallel1.cpp:202-237: the loop that
distributes `[1, limit)` over the threads; `th segmentSize segmentsPerThread i low` is the call of the thread
function number `i` and `w` the number of value bits of `phi_total`.  `times k i` is the time that is measured
for thread `i` in iteration `k`. -/
def masterLoop (w : ℕ) (sched : Scheduler) (log : Dbl → Dbl) (times : ℕ → ℕ → Dbl) (limit : ℕ)
    (th : ℕ → ℕ → ℕ → ℕ → M (ThreadRes R)) (ms : MasterSt R) : M R :=
  loop (limit + 1) ms (fun ms =>
    if ms.low < limit then do
      let (threads, segmentsPerThread) ← shares limit ms.low ms.threads ms.segmentSize ms.segmentsPerThread
      let res ← forUp 0 threads (⟨#[]⟩ : Vec (ThreadRes R)) (fun i res => do
        let r ← th ms.segmentSize segmentsPerThread i ms.low
        pure (res.push r))
      let s2 ← ompFor add (ofInt 0) ms.s2 () (sched (2 * ms.iter + 11) 0 threads) (fun i _ s2 => do
        let r ← res.rd i
        pure ((), add s2 r.s2))
      let (s2, phiTotal) ← reconstruct w res threads s2 ms.phiTotal
      let low ← nextLow ms.low threads ms.segmentSize segmentsPerThread
      let (lb, segmentSize, segmentsPerThread) ←
        LB.update log ms.lb ((List.range threads).map (times ms.iter)) low threads ms.segmentSize segmentsPerThread
      pure (.next ⟨ms.iter + 1, low, threads, segmentSize, segmentsPerThread, lb, s2, phiTotal⟩)
    else pure (.done ms.s2))

/-- What the environment supplies to one run of `S2_hard`. -/
structure Env where
  sched : Scheduler
  /-- the measured times: iteration of the loop, number of the thread -/
  times : ℕ → ℕ → Dbl
  /-- the function `log` of the C library -/
  log : Dbl → Dbl
  merge : FactorTable.Merge

/-- src/deleglise-rivat/S2_hard.cpp:316-381: `S2_hard_OpenMP_master`. -/
def master (R : Type) [Res R] [Inhabited R] (e : Env) (x y z c : ℕ) (primes factors : Vec ℕ) (threads : ℤ) : M R := do
  let threads ← idealNumThreads threads z (10 ^ 5)
  let limit ← fit 63 (z + 1)
  let maxPrime ← cdiv z (Nat.sqrt y)
  let lb ← LB.init e.log x y z threads.toNat
  let pi ← PiTable.build maxPrime
  let n ← pi.at (Nat.sqrt z)
  let alpha ← getAlphaXY x y
  masterLoop 127 e.sched e.log e.times limit (fun segmentSize segmentsPerThread i low =>
      thread R (fewLeaves y alpha) x y z c primes factors pi segmentSize segmentsPerThread i low limit)
    ⟨0, 1, threads.toNat, lb.minSize, 1, lb, ofInt 0, Vec.mk' (n + 1) 0⟩

/-- src/deleglise-rivat/S2_hard.cpp:387-424: `S2_hard`.  `max_prime` can exceed `2^32`, so that
`generate_primes<uint32_t>` truncates the larger primes. -/
def s2Hard (e : Env) (x y z c : ℕ) (threads : ℤ) : M I256 := do
  if y ≤ FactorTable.max' (2 ^ 16 - 1) then do
    let factors ← FactorTable.build (2 ^ 16 - 1) e.merge y threads
    let maxPrime ← cdiv z (Nat.sqrt y)
    let primes := truncVec 32 (generatePrimes maxPrime)
    if x ≤ 2 ^ 63 - 1 then do
      let r ← master W128 e x y z c primes factors threads
      pure (toI256 r)
    else do
      let r ← master I256 e x y z c primes factors threads
      pure (toI256 r)
  else do
    let factors ← FactorTable.build (2 ^ 32 - 1) e.merge y threads
    let maxPrime ← cdiv z (Nat.sqrt y)
    let primes ← generatePrimesT 63 maxPrime
    let r ← master I256 e x y z c primes factors threads
    pure (toI256 r)

end S2Hard
end PS
